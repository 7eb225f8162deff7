import Verif.Model.RingBuffer
/-!
# Model of copies of a ring buffer

`/repo/src/spine/structure/ringbuffer.hpp` declares no copy or move operations. Those the compiler makes copy or move `m_buffer`, an `Array` (`array.hpp:156-189`), and copy the other
members. The copy of an `Array` points to the same block and does not free it; the source of a move keeps its size, with a null pointer.

Here one block is shared by the ring buffer that allocated it and its copies, named by numbers; each has its other members for itself. The calls are those of
`Verif/Model/RingBuffer.lean`, run on the shared block. A call that reads or writes a slot is undefined behaviour if the block was freed or the pointer is null; other calls, such as
`used_space()`, only use the members. Assignment to a ring buffer that has another block, which is never freed then (C67), is left out.
-/

namespace Spine

variable {α : Type}

/-- The call reads or writes a slot. -/
def Ring.touches (r : Ring α) : Ring.Op α → Bool
  | .push _ rollover => !(r.isFull && !rollover)
  | .pushMany vs rollover => !vs.isEmpty && !(r.isFull && !rollover)
  | .pop => !r.empty
  | .popMany _ length => decide (0 < length ∧ length ≤ r.usedSpace)
  | .peekAt index => decide (index < r.usedSpace)
  | _ => false

/-- The members that each ring buffer has for itself, `ringbuffer.hpp:72-76`, `array.hpp:111-115`. -/
structure RingView where
  head : Nat
  tail : Nat
  overwritten : Nat
  isFull : Bool
  /-- `m_buffer.m_store_is_internal` -/
  owner : Bool
  /-- `m_buffer.m_store` is null -/
  null : Bool
  deriving DecidableEq, Repr

/-- A ring buffer and its copies. -/
structure Rings (α : Type) where
  /-- the block of slots -/
  buf : List α
  /-- `free` was called on the block -/
  freed : Bool
  /-- the ring buffers that exist -/
  views : Nat → Option RingView

namespace Rings

/-- What a program does. -/
inductive Op (α : Type)
  | call (h : Nat) (op : Ring.Op α)
  /-- `RingBuffer h(other)`, or `h = other` -/
  | copy (h other : Nat)
  /-- `RingBuffer h(std::move(other))` -/
  | move (h other : Nat)
  | destroy (h : Nat)
  deriving DecidableEq, Repr

/-- The ring buffer that allocated the block. -/
def single (h : Nat) (r : Ring α) : Rings α :=
  { buf := r.buf, freed := false, views := fun k => if k = h then some ⟨r.head, r.tail, r.overwritten, r.isFull, true, false⟩ else none }

/-- One of the ring buffers as a ring buffer of its own. -/
def ring (s : Rings α) (v : RingView) : Ring α := { buf := s.buf, head := v.head, tail := v.tail, overwritten := v.overwritten, isFull := v.isFull }

/-- A ring buffer that exists; using another one is undefined behaviour. -/
def view (s : Rings α) (h : Nat) : Res RingView :=
  match s.views h with
  | some v => .ok v
  | none => .error .ub

/-- Set the members of a ring buffer. -/
def set (s : Rings α) (h : Nat) (v : Option RingView) : Rings α := { s with views := fun k => if k = h then v else s.views k }

/-- A call on the ring buffer `h`. -/
def call (s : Rings α) (h : Nat) (op : Ring.Op α) : Res (Ring.Out α × Rings α) := do
  let v ← s.view h
  if (s.freed || v.null) && (s.ring v).touches op then throw .ub
  let (o, r) ← (s.ring v).step op
  return (o, { s with buf := r.buf }.set h (some { v with head := r.head, tail := r.tail, overwritten := r.overwritten, isFull := r.isFull }))

/-- The implicit copy constructor and copy assignment, with `array.hpp:156-160` and `:171-178`. -/
def copy (s : Rings α) (h other : Nat) : Res (Rings α) := do
  let v ← s.view other
  return if h = other then s else s.set h (some { v with owner := false })

/-- The implicit move constructor, with `array.hpp:162-168`. -/
def move (s : Rings α) (h other : Nat) : Res (Rings α) := do
  let v ← s.view other
  return (s.set other (some { v with null := true })).set h (some v)

/-- The implicit destructor, with `array.hpp:148-154`. -/
def destroy (s : Rings α) (h : Nat) : Res (Rings α) := do
  let v ← s.view h
  if v.owner && !v.null && s.freed then throw .ub
  return { s with freed := s.freed || (v.owner && !v.null) }.set h none

/-- One operation, and what a call returns. -/
def step (s : Rings α) : Op α → Res (Option (Ring.Out α) × Rings α)
  | .call h op => do let (o, s) ← s.call h op; return (some o, s)
  | .copy h other => do return (none, ← s.copy h other)
  | .move h other => do return (none, ← s.move h other)
  | .destroy h => do return (none, ← s.destroy h)

/-- A program. -/
def run (s : Rings α) : List (Op α) → Res (List (Option (Ring.Out α)) × Rings α)
  | [] => .ok ([], s)
  | op :: ops => do
    let (o, s) ← s.step op
    let (os, s) ← s.run ops
    return (o :: os, s)

end Rings
end Spine
