import Verif.Model.Vector
/-!
# Model of inserting an element of a vector into the same vector

`push_back`, `push_front` and `insert` of `/repo/src/spine/structure/vector.hpp` take the item by reference. When it refers to an element of the vector itself, as in `v.push_back(v[k])`, it is a
reference to a slot, read when the item is assigned. The model follows `Verif/Model/Vector.lean` line by line; only the item differs.
-/

namespace Spine.Vec

variable {α : Type}

/-- The slot that `v[k]` refers to, `vector.hpp:127-131`. -/
def slotOf (b : Build) (v : Vec α) (k : Nat) : Res Nat := do
  spnAssert b (decide (v.head + k < v.tail))
  return v.head + k

/-- `m_store[i] = item`, where `item` refers to slot `s`. -/
def assignFrom (v : Vec α) (i s : Nat) : Res (Vec α) := do
  let item ← rd v.store s
  v.assign i item

/-- `push_back(const T&)`, `vector.hpp:133-139`, with a reference to slot `s`. -/
def pushBackSlot (b : Build) (e : Elem α) (v : Vec α) (s : Nat) : Res (Vec α) := do
  let v ← v.compact b e
  spnAssert b (decide (v.tail < v.maxSize))
  if v.tail < v.maxSize then
    let v ← v.assignFrom v.tail s
    return { v with tail := v.tail + 1 }
  else return v

/-- `push_front(const T&)`, `vector.hpp:171-187`, with a reference to slot `s`. -/
def pushFrontSlot (b : Build) (e : Elem α) (v : Vec α) (s : Nat) : Res (Vec α) := do
  spnAssert b (decide (v.size < v.maxSize))
  if v.head > 0 then
    assignFrom { v with head := v.head - 1 } (v.head - 1) s
  else
    let store ← memmove v.store (v.head + 1) v.head v.size
    let store ← memzero e store v.head 1
    let v ← assignFrom { v with store } v.head s
    return { v with tail := v.tail + 1 }

/-- `insert(index, const T&)`, `vector.hpp:221-242`, with a reference to slot `s`. -/
def insertSlot (b : Build) (e : Elem α) (v : Vec α) (index s : Nat) : Res (Vec α) := do
  spnAssert b (decide (v.size < v.maxSize))
  if index = 0 then v.pushFrontSlot b e s
  else if v.head + index ≥ v.tail then v.pushBackSlot b e s
  else
    let v ← v.compact b e
    spnAssert b (decide (v.tail < v.maxSize))
    let store ← memmove v.store (v.head + index + 1) (v.head + index) (usub v.tail (v.head + index))
    let store ← memzero e store (v.head + index) 1
    assignFrom { v with store, tail := v.tail + 1 } (v.head + index) s

/-- `v.push_back(v[k])`. -/
def pushBackOwn (b : Build) (e : Elem α) (v : Vec α) (k : Nat) : Res (Vec α) := do v.pushBackSlot b e (← v.slotOf b k)

/-- `v.push_front(v[k])`. -/
def pushFrontOwn (b : Build) (e : Elem α) (v : Vec α) (k : Nat) : Res (Vec α) := do v.pushFrontSlot b e (← v.slotOf b k)

/-- `v.insert(i, v[k])`. -/
def insertOwn (b : Build) (e : Elem α) (v : Vec α) (i k : Nat) : Res (Vec α) := do v.insertSlot b e i (← v.slotOf b k)

end Spine.Vec
