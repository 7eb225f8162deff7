import Verif.Core.Outcome
/-!
# Model of `spn::structure::Vector<T>`

`/repo/src/spine/structure/vector.hpp` on top of `/repo/src/spine/structure/array.hpp`.

A `Vector` keeps its elements in the window `[m_head, m_tail)` of a fixed block of slots.  Elements are
moved inside the block with `memmove` and slots are cleared with `memset`, neither of which runs
constructors, destructors or assignment operators of `T`.  To see what that means for element types
that own something, the model keeps a log of the element operations that *do* run: copy assignment
into a slot destroys the old content of the slot and creates a copy of the assigned value, and moving a
value out of a slot hands it to the caller.  The log is a ghost: no operation reads it.

Sums of indices are not wrapped (a block of half as many elements as `size_t` has values does not exist), differences are.
-/

namespace Spine

variable {α : Type}

/-- What the vector needs to know about `T`. -/
structure Elem (α : Type) where
  /-- the value whose bytes are all zero (what `memset(.., '\0', sizeof(T))` leaves in a slot) -/
  zero : α
  /-- what is left in an object after its value was moved out -/
  moved : α → α

/-- `std::shared_ptr<ω>`; `none` is the null pointer.  The all-zero bytes are a null pointer, and so is a pointer that was moved
from. -/
abbrev sharedPtr (ω : Type) : Elem (Option ω) := { zero := none, moved := fun _ => none }

/-- Element operations run by the vector. -/
inductive Ev (α : Type)
  /-- a copy of the value was made (the right-hand side of a copy assignment into a slot) -/
  | copied (v : α)
  /-- the value was destroyed (the old content of a slot under a copy assignment) -/
  | destroyed (v : α)
  /-- the value was moved out to the caller -/
  | taken (v : α)
  deriving DecidableEq, Repr

/-- `memmove(&m[dst], &m[src], n * sizeof(T))`; touching anything outside the block is undefined
behaviour, moving nothing is fine. -/
def memmove (m : List α) (dst src n : Nat) : Res (List α) :=
  if n = 0 then .ok m
  else if src + n ≤ m.length ∧ dst + n ≤ m.length then
    .ok (m.take dst ++ (m.drop src).take n ++ m.drop (dst + n))
  else .error .ub

/-- `memset(&m[i], '\0', n * sizeof(T))`. -/
def memzero (e : Elem α) (m : List α) (i n : Nat) : Res (List α) :=
  if n = 0 then .ok m
  else if i + n ≤ m.length then .ok (m.take i ++ List.replicate n e.zero ++ m.drop (i + n))
  else .error .ub

/-- The data members, `array.hpp:111-112` and `vector.hpp:96-97`, and the log of element operations
(newest first).  Who frees `m_store` is modelled in `Verif/Model/Array.lean`. -/
structure Vec (α : Type) where
  /-- `m_store[0 .. m_max_size)` -/
  store : List α
  /-- `m_head` -/
  head : Nat
  /-- `m_tail` -/
  tail : Nat
  /-- ghost -/
  log : List (Ev α)
  deriving DecidableEq, Repr

namespace Vec

/-- `Vector(max_size)`, `vector.hpp:100-101`, `array.hpp:128-132`: zeroed slots, empty window. -/
def create (e : Elem α) (maxSize : Nat) : Vec α :=
  { store := List.replicate maxSize e.zero, head := 0, tail := 0, log := [] }

/-- `max_size()`, `array.hpp:314-317`. -/
def maxSize (v : Vec α) : Nat := v.store.length

/-- `size()`, `vector.hpp:323-326`. -/
def size (v : Vec α) : Nat := usub v.tail v.head

/-- `empty()`, `vector.hpp:328-331`. -/
def empty (v : Vec α) : Bool := v.size == 0

/-- `full()`, `vector.hpp:333-336`. -/
def full (v : Vec α) : Bool := v.size == v.maxSize

/-- `m_store[i] = item`: the old content of the slot is destroyed, a copy of `item` takes its place. -/
def assign (v : Vec α) (i : Nat) (item : α) : Res (Vec α) := do
  let old ← rd v.store i
  return { v with store := v.store.set i item, log := .copied item :: .destroyed old :: v.log }

/-- Move the content of slot `i` out (`std::move(m_store[i])` used to initialise an object). -/
def take (e : Elem α) (v : Vec α) (i : Nat) : Res (α × Vec α) := do
  let x ← rd v.store i
  return (x, { v with store := v.store.set i (e.moved x), log := .taken x :: v.log })

/-- The rvalue reference returned by `pop_front`/`pop_back`, and what the caller does with it: `consume`
when it initialises an object from it, otherwise the caller only looks at it (or ignores it). -/
def rvalue (e : Elem α) (v : Vec α) (i : Nat) (consume : Bool) : Res (α × Vec α) :=
  if consume then v.take e i else do
    let x ← rd v.store i
    return (x, v)

/-- `Array::fill` then the window, `array.hpp:326-330` and `vector.hpp:338-343`: every slot is
assigned in turn. -/
def fill (v : Vec α) (value : α) : Res (Vec α) := do
  let v ← (List.range v.maxSize).foldlM (fun v i => v.assign i value) v
  return { v with head := 0, tail := v.maxSize }

/-- `Vector(max_size, init_value)`, `vector.hpp:103-104`, `array.hpp:134-137`. -/
def createFilled (e : Elem α) (maxSize : Nat) (init : α) : Res (Vec α) := (create e maxSize).fill init

/-- `Vector(initializer_list)`, `vector.hpp:106-107`, `array.hpp:139-146`: the capacity is the length of
the list.  The assertion `max_size() == init_values.size()` is true by construction. -/
def ofList (e : Elem α) (values : List α) : Res (Vec α) := do
  let v ← (values.zipIdx).foldlM (fun v (x, i) => v.assign i x) (create e values.length)
  return { v with head := 0, tail := values.length }

/-- `Vector(T (&store)[CAP], size)`, `vector.hpp:117-119`: a window over foreign slots. -/
def over (store : List α) (size : Nat) : Vec α := { store, head := 0, tail := size, log := [] }

/-- `rearrange(idx)`, `vector.hpp:76-93`. -/
def rearrange (b : Build) (e : Elem α) (v : Vec α) (idx : Nat) : Res (Vec α) := do
  spnAssert b (decide (idx + v.size < v.maxSize))
  let store ← memmove v.store idx v.head v.size
  let newTail := idx + v.size
  let newHead := idx
  let store ← memzero e store 0 newHead
  spnAssert b (decide (usub v.size newTail < v.maxSize))
  let store ← memzero e store newTail (usub v.maxSize newTail)
  return { v with store, head := newHead, tail := newTail }

/-- `if (m_tail >= max_size() && m_head > 0) rearrange(0);`, `vector.hpp:135`, `:143`, `:233`. -/
def compact (b : Build) (e : Elem α) (v : Vec α) : Res (Vec α) :=
  if v.tail ≥ v.maxSize ∧ v.head > 0 then v.rearrange b e 0 else .ok v

/-- `push_back`, `vector.hpp:133-139`. -/
def pushBack (b : Build) (e : Elem α) (v : Vec α) (item : α) : Res (Vec α) := do
  let v ← v.compact b e
  spnAssert b (decide (v.tail < v.maxSize))
  if v.tail < v.maxSize then
    let v ← v.assign v.tail item
    return { v with tail := v.tail + 1 }
  else return v

/-- `emplace_back(const T&&)`, `vector.hpp:141-150`.  The parameter is a *const* rvalue reference, so
`std::move(item)` still copies. -/
def emplaceBack (b : Build) (e : Elem α) (v : Vec α) (item : α) : Res (Vec α) := do
  let v ← v.compact b e
  spnAssert b (decide (v.tail < v.maxSize))
  if v.tail < v.maxSize then
    let v ← v.assign v.tail item
    return { v with tail := v.tail + 1 }
  else return v

/-- `peek_back`, `vector.hpp:152-156`. -/
def peekBack (b : Build) (v : Vec α) : Res α := do
  spnAssert b (decide (v.size > 0))
  rd v.store (usub v.tail 1)

/-- `pop_back`, `vector.hpp:158-169`. -/
def popBack (b : Build) (e : Elem α) (v : Vec α) (consume : Bool) : Res (α × Vec α) := do
  spnAssert b (decide (v.size > 0))
  let v := if v.tail > 0 then
      if v.tail - 1 = v.head then { v with tail := 0, head := 0 } else { v with tail := v.tail - 1 }
    else v
  v.rvalue e v.tail consume

/-- `push_front`, `vector.hpp:171-187`. -/
def pushFront (b : Build) (e : Elem α) (v : Vec α) (item : α) : Res (Vec α) := do
  spnAssert b (decide (v.size < v.maxSize))
  if v.head > 0 then
    assign { v with head := v.head - 1 } (v.head - 1) item
  else
    let store ← memmove v.store (v.head + 1) v.head v.size
    let store ← memzero e store v.head 1
    let v ← assign { v with store } v.head item
    return { v with tail := v.tail + 1 }

/-- `emplace_front(const T&&)`, `vector.hpp:189-202`. -/
def emplaceFront (e : Elem α) (v : Vec α) (item : α) : Res (Vec α) := do
  if v.head > 0 then
    assign { v with head := v.head - 1 } (v.head - 1) item
  else
    let store ← memmove v.store (v.head + 1) v.head v.size
    let store ← memzero e store v.head 1
    let v ← assign { v with store } v.head item
    return { v with tail := v.tail + 1 }

/-- `peek_front`, `vector.hpp:204-208`. -/
def peekFront (b : Build) (v : Vec α) : Res α := do
  spnAssert b (decide (v.size > 0))
  rd v.store v.head

/-- `pop_front`, `vector.hpp:210-219`. -/
def popFront (b : Build) (e : Elem α) (v : Vec α) (consume : Bool) : Res (α × Vec α) := do
  spnAssert b (decide (v.size > 0))
  let curHead := v.head
  let v := { v with head := v.head + 1 }
  let v := if v.tail = v.head then { v with tail := 0, head := 0 } else v
  v.rvalue e curHead consume

/-- `insert`, `vector.hpp:221-242`. -/
def insert (b : Build) (e : Elem α) (v : Vec α) (index : Nat) (item : α) : Res (Vec α) := do
  spnAssert b (decide (v.size < v.maxSize))
  if index = 0 then v.pushFront b e item
  else if v.head + index ≥ v.tail then v.pushBack b e item
  else
    let v ← v.compact b e
    spnAssert b (decide (v.tail < v.maxSize))
    let store ← memmove v.store (v.head + index + 1) (v.head + index) (usub v.tail (v.head + index))
    let store ← memzero e store (v.head + index) 1
    assign { v with store, tail := v.tail + 1 } (v.head + index) item

/-- `remove`, `vector.hpp:244-263`.  The value is returned by value, so it is always moved out.  The
illegal-index case returns a value-initialised `T`, which is `e.zero`. -/
def remove (b : Build) (e : Elem α) (v : Vec α) (index : Nat) : Res (α × Vec α) := do
  if index = v.head then v.popFront b e true
  else if index = v.tail then v.popBack b e true
  else if index > v.head ∧ index < v.tail then
    let (removed, v) ← v.take e index
    let store ← memmove v.store index (index + 1) (usub v.tail index)
    let v := { v with store, tail := v.tail - 1 }
    let v := if v.tail = v.head then { v with tail := 0, head := 0 } else v
    return (removed, v)
  else
    spnAssert b false
    return (e.zero, v)

/-- The loop of `clear`: `n` rounds of `const auto _ = pop_back()`.  The popped value is moved into `_`
and destroyed at once. -/
def clearLoop (b : Build) (e : Elem α) (v : Vec α) : Nat → Res (Vec α)
  | 0 => .ok v
  | n + 1 => do
    let (_, v) ← v.popBack b e true
    v.clearLoop b e n

/-- `clear`, `vector.hpp:265-270`.  `begin()` and `end()` are taken once, before the loop, so the body
runs `m_tail - m_head` times. -/
def clear (b : Build) (e : Elem α) (v : Vec α) : Res (Vec α) := v.clearLoop b e v.size

/-- `operator[]`, `vector.hpp:121-131`. -/
def get (b : Build) (v : Vec α) (index : Nat) : Res α := do
  spnAssert b (decide (v.head + index < v.tail))
  rd v.store (v.head + index)

/-- `v[index] = item` through the reference returned by `operator[]`, `vector.hpp:121-125`. -/
def put (b : Build) (v : Vec α) (index : Nat) (item : α) : Res (Vec α) := do
  spnAssert b (decide (v.head + index < v.tail))
  v.assign (v.head + index) item

/-- `back()`, `vector.hpp:272-275`. -/
def back (v : Vec α) : Res α := rd v.store (if v.tail > 0 then v.tail - 1 else 0)

/-- `front()`: inherited, `array.hpp:214-217`. -/
def front (v : Vec α) : Res α := rd v.store 0

/-- `~Vector()`: implicit, runs only `~Array` (`array.hpp:148-154`), which hands the block back to `free`
without running any element destructor.  The result is the log of element operations of the whole life of
the vector. -/
def destroy (v : Vec α) : List (Ev α) := v.log

/-- A `for (it = first; it != last; ++it) visit(*it);` loop over slot indices
(`array.hpp:342-379` and `:393-407`): two iterators are compared by index only, `++` adds or subtracts
one on `size_t`, `*` reads the slot.  `fuel` bounds the number of rounds. -/
def iterate (v : Vec α) (next : Nat → Nat) (last : Nat) : Nat → Nat → Res (List α)
  | _, 0 => .error .fuel
  | it, fuel + 1 =>
    if it = last then .ok []
    else do
      let x ← rd v.store it
      let xs ← v.iterate next last (next it) fuel
      return x :: xs

/-- Everything seen by a loop from `begin()` to `end()`, `vector.hpp:279-297`. -/
def forward (v : Vec α) (fuel : Nat) : Res (List α) :=
  v.iterate (fun i => uadd i 1) v.tail v.head fuel

/-- Everything seen by a loop from `rbegin()` to `rend()`, `vector.hpp:301-319`. -/
def reverse (v : Vec α) (fuel : Nat) : Res (List α) :=
  let some_ := if v.tail ≠ v.head then 1 else 0
  v.iterate (fun i => usub i 1) (usub v.head some_) (usub v.tail some_) fuel

/-- The public operations of a vector. -/
inductive Op (α : Type)
  | pushBack (x : α)
  | emplaceBack (x : α)
  | pushFront (x : α)
  | emplaceFront (x : α)
  | insert (i : Nat) (x : α)
  | popFront (consume : Bool)
  | popBack (consume : Bool)
  | remove (i : Nat)
  | clear
  | fill (x : α)
  | put (i : Nat) (x : α)
  | get (i : Nat)
  | peekFront
  | peekBack
  | back
  | front
  | size
  | empty
  | full
  | maxSize
  deriving DecidableEq, Repr

/-- What an operation returns. -/
inductive Out (α : Type)
  | unit
  | val (x : α)
  | num (n : Nat)
  | bool (b : Bool)
  deriving DecidableEq, Repr

/-- Run one operation. -/
def step (b : Build) (e : Elem α) (v : Vec α) : Op α → Res (Out α × Vec α)
  | .pushBack x => do return (.unit, ← v.pushBack b e x)
  | .emplaceBack x => do return (.unit, ← v.emplaceBack b e x)
  | .pushFront x => do return (.unit, ← v.pushFront b e x)
  | .emplaceFront x => do return (.unit, ← v.emplaceFront e x)
  | .insert i x => do return (.unit, ← v.insert b e i x)
  | .popFront c => do let (x, v) ← v.popFront b e c; return (.val x, v)
  | .popBack c => do let (x, v) ← v.popBack b e c; return (.val x, v)
  | .remove i => do let (x, v) ← v.remove b e i; return (.val x, v)
  | .clear => do return (.unit, ← v.clear b e)
  | .fill x => do return (.unit, ← v.fill x)
  | .put i x => do return (.unit, ← v.put b i x)
  | .get i => do return (.val (← v.get b i), v)
  | .peekFront => do return (.val (← v.peekFront b), v)
  | .peekBack => do return (.val (← v.peekBack b), v)
  | .back => do return (.val (← v.back), v)
  | .front => do return (.val (← v.front), v)
  | .size => .ok (.num v.size, v)
  | .empty => .ok (.bool v.empty, v)
  | .full => .ok (.bool v.full, v)
  | .maxSize => .ok (.num v.maxSize, v)

/-- Run a history of operations. -/
def run (b : Build) (e : Elem α) (v : Vec α) : List (Op α) → Res (List (Out α) × Vec α)
  | [] => .ok ([], v)
  | op :: ops => do
    let (o, v) ← v.step b e op
    let (os, v) ← v.run b e ops
    return (o :: os, v)

end Vec
end Spine
