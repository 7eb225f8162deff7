import Verif.Model.Array
/-!
# Model of vectors as objects: copies, moves, swaps and assigned lists

`/repo/src/spine/structure/vector.hpp` declares no copy or move operations of its own: the ones the compiler makes copy or move the `Array` (`array.hpp`, modelled in
`Verif/Model/Array.lean`) and copy `m_head` and `m_tail`. `swap` is the one of `Array`. The operations on the elements of one vector are modelled in
`Verif/Model/Vector.lean`; here only reading and writing an element.
-/

namespace Spine

variable {α : Type}

/-- A program with vectors: their arrays, and `m_head` and `m_tail` of each (`vector.hpp:96-97`). -/
structure Vecs (α : Type) where
  arrs : World α
  head : Nat → Nat
  tail : Nat → Nat

namespace Vecs

/-- No vectors yet. -/
def start (ext : Nat → List α) : Vecs α := ⟨World.start ext, fun _ => 0, fun _ => 0⟩

/-- Set the window of a vector. -/
def window (v : Vecs α) (arrs : World α) (h head tail : Nat) : Vecs α := ⟨arrs, upd v.head h head, upd v.tail h tail⟩

/-- `Vector(max_size)`, `vector.hpp:100-101`. -/
def create (zero : α) (v : Vecs α) (h n : Nat) : Vecs α := v.window (v.arrs.create zero h n) h 0 0

/-- `Vector(initializer_list)`, `vector.hpp:106-107`. -/
def ofList (zero : α) (v : Vecs α) (h : Nat) (xs : List α) : Res (Vecs α) := do
  let w ← v.arrs.ofList zero h xs
  return v.window w h 0 xs.length

/-- `operator=(initializer_list)`, `vector.hpp:109-115`. -/
def listAssign (zero : α) (v : Vecs α) (h : Nat) (xs : List α) : Res (Vecs α) := do
  let w ← v.arrs.listAssign zero h xs
  return v.window w h 0 xs.length

/-- The implicit copy constructor. -/
def copy (v : Vecs α) (h other : Nat) : Res (Vecs α) := do
  let w ← v.arrs.copy h other
  return v.window w h (v.head other) (v.tail other)

/-- The implicit move constructor; `m_head` and `m_tail` of the source stay. -/
def move (v : Vecs α) (h other : Nat) : Res (Vecs α) := do
  let w ← v.arrs.move h other
  return v.window w h (v.head other) (v.tail other)

/-- The implicit copy assignment. -/
def copyAssign (v : Vecs α) (h other : Nat) : Res (Vecs α) := do
  let w ← v.arrs.copyAssign h other
  return v.window w h (v.head other) (v.tail other)

/-- The implicit move assignment. -/
def moveAssign (v : Vecs α) (h other : Nat) : Res (Vecs α) := do
  let w ← v.arrs.moveAssign h other
  return v.window w h (v.head other) (v.tail other)

/-- `v.swap(u)`: `Array::swap`, `array.hpp:319-324`. -/
def swap (v : Vecs α) (h other : Nat) : Res (Vecs α) := do
  let w ← v.arrs.swap h other
  return { v with arrs := w }

/-- `size()`, `vector.hpp:323-326`. -/
def size (v : Vecs α) (h : Nat) : Res Nat := do
  let _ ← v.arrs.obj h
  return usub (v.tail h) (v.head h)

/-- `operator[]`, reading, `vector.hpp:127-131`. -/
def get (b : Build) (v : Vecs α) (h i : Nat) : Res α := do
  let a ← v.arrs.obj h
  spnAssert b (decide (v.head h + i < v.tail h))
  v.arrs.load a.store (v.head h + i)

/-- `operator[]`, writing, `vector.hpp:121-125`. -/
def set (b : Build) (v : Vecs α) (h i : Nat) (x : α) : Res (Vecs α) := do
  let a ← v.arrs.obj h
  spnAssert b (decide (v.head h + i < v.tail h))
  let w ← v.arrs.save a.store (v.head h + i) x
  return { v with arrs := w }

end Vecs
end Spine
