import Verif.Core.Outcome
/-!
# Model of `spn::structure::Array<T>`: ownership of the storage, and iterators

`/repo/src/spine/structure/array.hpp`.

A program owns any number of `Array` objects, named by handles.  Their storage lies on the heap
(`malloc`/`free`) or in memory of the caller.  Reading or writing through a null or dangling pointer or
outside a block, freeing twice, and freeing memory that did not come from `malloc` are undefined behaviour.

Simplifications: `malloc` does not fail and never returns the address of an earlier block again (so that a dangling
pointer stays recognisable); memory of the caller outlives the arrays over it; `T` is a plain value type
(element destructors are looked at in `Verif/Model/Vector.lean`); the constructor from a `uint8_t` buffer
(`array.hpp:122-126`, whose `static_cast` compiles for `T = uint8_t` only) is left out.
-/

namespace Spine

variable {α : Type}

/-- The value of `m_store`. -/
inductive Ptr
  | null
  /-- the start of the `i`-th block handed out by `malloc` -/
  | heap (i : Nat)
  /-- the start of the `i`-th block of memory of the caller -/
  | ext (i : Nat)
  deriving DecidableEq, Repr

/-- The data members, `array.hpp:111-115`. -/
structure Arr where
  /-- `m_store` -/
  store : Ptr
  /-- `m_max_size` -/
  maxSize : Nat
  /-- `m_store_is_internal` -/
  internal : Bool
  deriving DecidableEq, Repr

/-- Replace one value of a table. -/
def upd {β : Type} (f : Nat → β) (i : Nat) (v : β) : Nat → β := fun j => if j = i then v else f j

/-- Memory and array objects of a program. -/
structure World (α : Type) where
  /-- blocks on the heap, `none` before `malloc` and after `free` -/
  heap : Nat → Option (List α)
  /-- number of the next block that `malloc` hands out -/
  next : Nat
  /-- memory of the caller -/
  ext : Nat → List α
  /-- the living array objects -/
  objs : Nat → Option Arr

namespace World

/-- A program that has memory of its own but no arrays yet. -/
def start (ext : Nat → List α) : World α := { heap := fun _ => none, next := 0, ext, objs := fun _ => none }

/-- The object behind a handle.  Using an object before its construction or after its destruction is
undefined behaviour. -/
def obj (w : World α) (h : Nat) : Res Arr :=
  match w.objs h with
  | some a => .ok a
  | none => .error .ub

/-- `std::malloc` of `n` elements and the `memset` that follows it (`array.hpp:130-131`). -/
def malloc (w : World α) (zero : α) (n : Nat) : Ptr × World α :=
  (.heap w.next, { w with heap := upd w.heap w.next (some (List.replicate n zero)), next := w.next + 1 })

/-- `std::free`. -/
def free (w : World α) : Ptr → Res (World α)
  | .null => .ok w
  | .heap i => match w.heap i with
    | some _ => .ok { w with heap := upd w.heap i none }
    | none => .error .ub
  | .ext _ => .error .ub

/-- The block a pointer points to. -/
def block (w : World α) : Ptr → Res (List α)
  | .null => .error .ub
  | .heap i => match w.heap i with
    | some m => .ok m
    | none => .error .ub
  | .ext i => .ok (w.ext i)

/-- Replace the content of a block. -/
def setBlock (w : World α) (p : Ptr) (m : List α) : World α :=
  match p with
  | .null => w
  | .heap i => { w with heap := upd w.heap i (some m) }
  | .ext i => { w with ext := upd w.ext i m }

/-- `m_store[i]` as a value. -/
def load (w : World α) (p : Ptr) (i : Nat) : Res α := do
  rd (← w.block p) i

/-- `m_store[i] = x`. -/
def save (w : World α) (p : Ptr) (i : Nat) (x : α) : Res (World α) := do
  let m ← wr (← w.block p) i x
  return w.setBlock p m

/-- Put an object behind a handle. -/
def put (w : World α) (h : Nat) (a : Arr) : World α := { w with objs := upd w.objs h (some a) }

/-- `Array(max_size)`, `array.hpp:128-132`. -/
def create (zero : α) (w : World α) (h n : Nat) : World α :=
  let (p, w) := w.malloc zero n
  w.put h { store := p, maxSize := n, internal := true }

/-- `Array(T (&store)[CAP])`, `array.hpp:118-120`; `CAP` is the size of the caller's block. -/
def wrap (w : World α) (h x : Nat) : World α :=
  w.put h { store := .ext x, maxSize := (w.ext x).length, internal := false }

/-- `fill`, `array.hpp:326-330`. -/
def fill (w : World α) (h : Nat) (x : α) : Res (World α) := do
  let a ← w.obj h
  (List.range a.maxSize).foldlM (fun w i => w.save a.store i x) w

/-- `Array(max_size, init_value)`, `array.hpp:134-137`. -/
def createFilled (zero : α) (w : World α) (h n : Nat) (x : α) : Res (World α) := (w.create zero h n).fill h x

/-- `Array(initializer_list)`, `array.hpp:139-146`; its assertion compares the length of the list to
itself.  Returns the new array object without giving it a handle, because it is also used for a temporary. -/
def ofListTemp (zero : α) (w : World α) (xs : List α) : Res (Arr × World α) := do
  let (p, w) := w.malloc zero xs.length
  let w ← xs.zipIdx.foldlM (fun w (x, i) => w.save p i x) w
  return ({ store := p, maxSize := xs.length, internal := true }, w)

/-- `Array(initializer_list)` of a named array, `array.hpp:139-146`. -/
def ofList (zero : α) (w : World α) (h : Nat) (xs : List α) : Res (World α) := do
  let (a, w) ← w.ofListTemp zero xs
  return w.put h a

/-- `if (m_store_is_internal) std::free(m_store);`, `array.hpp:150-151` and `:192-194`. -/
def release (w : World α) (a : Arr) : Res (World α) := if a.internal then w.free a.store else .ok w

/-- `~Array`, `array.hpp:148-154`. -/
def destroy (w : World α) (h : Nat) : Res (World α) := do
  let a ← w.obj h
  let w ← w.release a
  return { w with objs := upd w.objs h none }

/-- `Array(const Array&)`, `array.hpp:156-160`. -/
def copy (w : World α) (h other : Nat) : Res (World α) := do
  let o ← w.obj other
  return w.put h { store := o.store, maxSize := o.maxSize, internal := false }

/-- `Array(Array&&)`, `array.hpp:162-167`. -/
def move (w : World α) (h other : Nat) : Res (World α) := do
  let o ← w.obj other
  let w := w.put h { store := o.store, maxSize := o.maxSize, internal := o.internal }
  return w.put other { o with store := .null }

/-- `operator=(const Array&)`, `array.hpp:169-177`. -/
def copyAssign (w : World α) (h other : Nat) : Res (World α) := do
  let _ ← w.obj h
  let o ← w.obj other
  if h = other then return w
  return w.put h { store := o.store, maxSize := o.maxSize, internal := false }

/-- `operator=(Array&&)`, `array.hpp:179-188`. -/
def moveAssign (w : World α) (h other : Nat) : Res (World α) := do
  let _ ← w.obj h
  let o ← w.obj other
  if h = other then return w
  let w := w.put h { store := o.store, maxSize := o.maxSize, internal := o.internal }
  return w.put other { o with store := .null }

/-- `operator=(initializer_list)`, `array.hpp:190-197`: free, build a temporary, move it in, destroy the
temporary (whose pointer is null by then). -/
def listAssign (zero : α) (w : World α) (h : Nat) (xs : List α) : Res (World α) := do
  let a ← w.obj h
  let w ← w.release a
  let (t, w) ← w.ofListTemp zero xs
  let w := w.put h t
  w.free .null

/-- `swap`, `array.hpp:319-324`: only the pointers change places. -/
def swap (w : World α) (h other : Nat) : Res (World α) := do
  let a ← w.obj h
  let o ← w.obj other
  let w := w.put h { a with store := o.store }
  let o ← w.obj other
  return w.put other { o with store := a.store }

/-- `at(i)`/`operator[](i)` read, `array.hpp:199-212`. -/
def get (w : World α) (h i : Nat) : Res α := do
  let a ← w.obj h
  w.load a.store i

/-- `at(i) = x`/`operator[](i) = x`, `array.hpp:199-207`. -/
def set (w : World α) (h i : Nat) (x : α) : Res (World α) := do
  let a ← w.obj h
  w.save a.store i x

/-- `front()`, `array.hpp:214-217`. -/
def front (w : World α) (h : Nat) : Res α := do
  let a ← w.obj h
  w.load a.store 0

/-- `back()`, `array.hpp:219-222`. -/
def back (w : World α) (h : Nat) : Res α := do
  let a ← w.obj h
  w.load a.store (if a.maxSize > 0 then a.maxSize - 1 else 0)

/-- `size()`, `max_size()`, `array.hpp:309-317`. -/
def size (w : World α) (h : Nat) : Res Nat := do
  let a ← w.obj h
  return a.maxSize

/-- What a program does with its arrays. -/
inductive Op (α : Type)
  | create (h n : Nat)
  | createFilled (h n : Nat) (x : α)
  | ofList (h : Nat) (xs : List α)
  | wrap (h x : Nat)
  | copy (h other : Nat)
  | move (h other : Nat)
  | copyAssign (h other : Nat)
  | moveAssign (h other : Nat)
  | listAssign (h : Nat) (xs : List α)
  | swap (h other : Nat)
  | destroy (h : Nat)
  | set (h i : Nat) (x : α)
  | fill (h : Nat) (x : α)

/-- Run one operation.  (Reading operations change nothing and are not part of the histories.) -/
def step (zero : α) (w : World α) : Op α → Res (World α)
  | .create h n => .ok (w.create zero h n)
  | .createFilled h n x => w.createFilled zero h n x
  | .ofList h xs => w.ofList zero h xs
  | .wrap h x => .ok (w.wrap h x)
  | .copy h o => w.copy h o
  | .move h o => w.move h o
  | .copyAssign h o => w.copyAssign h o
  | .moveAssign h o => w.moveAssign h o
  | .listAssign h xs => w.listAssign zero h xs
  | .swap h o => w.swap h o
  | .destroy h => w.destroy h
  | .set h i x => w.set h i x
  | .fill h x => w.fill h x

/-- Run a history. -/
def run (zero : α) (w : World α) : List (Op α) → Res (World α)
  | [] => .ok w
  | op :: ops => do
    let w ← w.step zero op
    w.run zero ops

end World

/-! ## Iterators -/

/-- `ArrayIterator`/`ArrayReverseIterator`, `array.hpp:20-51`: a pointer to the slots (here the slots
themselves) and an index, a `size_t`. -/
structure ArrIter (α : Type) where
  slots : List α
  index : Nat
  deriving DecidableEq, Repr

namespace ArrIter

/-- `operator++()` of the forward iterator, `array.hpp:352-356`. -/
def next (i : ArrIter α) : ArrIter α := { i with index := uadd i.index 1 }

/-- `operator--()` of the forward iterator, `array.hpp:364-368`. -/
def prev (i : ArrIter α) : ArrIter α := { i with index := usub i.index 1 }

/-- `operator++(int)`, `array.hpp:358-362`: the value of the expression, and the iterator afterwards. -/
def postNext (i : ArrIter α) : ArrIter α × ArrIter α := (i.next, i.next)

/-- `operator--(int)`, `array.hpp:370-374`. -/
def postPrev (i : ArrIter α) : ArrIter α × ArrIter α := (i.prev, i.prev)

/-- `operator++()` of the reverse iterator, `array.hpp:403-407`. -/
def rnext (i : ArrIter α) : ArrIter α := { i with index := usub i.index 1 }

/-- `operator--()` of the reverse iterator, `array.hpp:414-418`. -/
def rprev (i : ArrIter α) : ArrIter α := { i with index := uadd i.index 1 }

/-- `operator++(int)` of the reverse iterator, `array.hpp:409-413`: the value of the expression, and the iterator afterwards. -/
def rpostNext (i : ArrIter α) : ArrIter α × ArrIter α := (i.rnext, i.rnext)

/-- `operator--(int)` of the reverse iterator, `array.hpp:419-423`. -/
def rpostPrev (i : ArrIter α) : ArrIter α × ArrIter α := (i.rprev, i.rprev)

/-- `operator*`, `array.hpp:376-379`. -/
def deref (i : ArrIter α) : Res α := rd i.slots i.index

/-- `operator!=`, `array.hpp:342-345`, `:394-396`. -/
def differs (i j : ArrIter α) : Bool := j.index != i.index

/-- `for (it = first; it != last; it = step it) visit(*it)`, for at most `fuel` rounds. -/
def loop (step : ArrIter α → ArrIter α) (last : ArrIter α) : ArrIter α → Nat → Res (List α)
  | _, 0 => .error .fuel
  | it, fuel + 1 =>
    if it.differs last then do
      let x ← it.deref
      let xs ← loop step last (step it) fuel
      return x :: xs
    else .ok []

/-- `begin()`..`end()` of an array with these slots, `array.hpp:236-266`. -/
def forward (slots : List α) (fuel : Nat) : Res (List α) :=
  loop next ⟨slots, slots.length⟩ ⟨slots, 0⟩ fuel

/-- `rbegin()`..`rend()` of a non-const array, `array.hpp:270-278`, where `++` is `--m_index`
(`array.hpp:403-407`). -/
def reverse (slots : List α) (fuel : Nat) : Res (List α) :=
  loop rnext ⟨slots, usub 0 1⟩ ⟨slots, usub slots.length 1⟩ fuel

/-- `rbegin()`..`rend()` of a const array, and `crbegin()`..`crend()`, `array.hpp:282-300`. -/
def reverseConst (slots : List α) (fuel : Nat) : Res (List α) :=
  let last := usub slots.length (if slots.length > 0 then 1 else 0)
  loop rnext ⟨slots, last⟩ ⟨slots, last⟩ fuel

end ArrIter
end Spine
