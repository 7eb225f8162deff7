import Verif.Core.Outcome
/-!
# Model of `spn::structure::RingBuffer<T>`

`/repo/src/spine/structure/ringbuffer.hpp`.  The storage `Array<T> m_buffer` is a list of slots; its
length is the capacity and never changes.  Index sums such as `m_tail + index` are not
wrapped: they stay below twice the capacity, and a capacity of half the values of `size_t` does not exist.
-/

namespace Spine

variable {α : Type}

/-- The data members, `ringbuffer.hpp:71-76`. -/
structure Ring (α : Type) where
  /-- `m_buffer` -/
  buf : List α
  /-- `m_head`: where the next element is written -/
  head : Nat
  /-- `m_tail`: the oldest element -/
  tail : Nat
  /-- `m_overwritten` -/
  overwritten : Nat
  /-- `m_is_full` -/
  isFull : Bool
  deriving DecidableEq, Repr

namespace Ring

/-- `RingBuffer(size_t capacity, T init_value)`, `ringbuffer.hpp:11`. -/
def create (b : Build) (capacity : Nat) (init : α) : Res (Ring α) := do
  spnAssert b (decide (0 < capacity))
  return { buf := List.replicate capacity init, head := 0, tail := 0, overwritten := 0, isFull := false }

/-- `capacity()`, `ringbuffer.hpp:61`. -/
def capacity (r : Ring α) : Nat := r.buf.length

/-- `full()`, `ringbuffer.hpp:49`. -/
def full (r : Ring α) : Bool := r.isFull

/-- `empty()`, `ringbuffer.hpp:46`. -/
def empty (r : Ring α) : Bool := !r.full && r.head == r.tail

/-- `overrun_space()`, `ringbuffer.hpp:52`. -/
def overrunSpace (r : Ring α) : Nat := r.overwritten

/-- `used_space()`, `ringbuffer.hpp:171-176`. -/
def usedSpace (r : Ring α) : Nat :=
  if r.full then r.capacity
  else if r.head ≥ r.tail then r.head - r.tail
  else r.capacity - r.tail + r.head

/-- `free_space()`, `ringbuffer.hpp:178-183`. -/
def freeSpace (r : Ring α) : Nat :=
  if r.full then 0
  else if r.head ≥ r.tail then r.capacity - r.head + r.tail
  else r.tail - r.head

/-- `push(const T& value, bool rollover)`, `ringbuffer.hpp:79-91`. -/
def push (r : Ring α) (value : α) (rollover : Bool) : Res (Bool × Ring α) := do
  if r.isFull && !rollover then return (false, r)
  let buf ← wr r.buf r.head value
  let head ← umod (r.head + 1) r.buf.length
  if head = r.tail then
    return (true, { r with buf, head, isFull := true })
  else if r.isFull then
    let tail ← umod (r.tail + 1) r.buf.length
    return (true, { r with buf, head, tail, overwritten := uadd r.overwritten 1 })
  else
    return (true, { r with buf, head })

/-- `push(const T* buffer, size_t length, bool rollover)`, `ringbuffer.hpp:93-101`.  The block
`buffer[0..length)` is the list `vs`; the loop counter `values_written` is the returned number. -/
def pushMany (r : Ring α) (vs : List α) (rollover : Bool) : Res (Nat × Ring α) :=
  match vs with
  | [] => .ok (0, r)
  | v :: vs => do
    let (done, r) ← r.push v rollover
    if !done then return (0, r)
    let (n, r) ← r.pushMany vs rollover
    return (n + 1, r)

/-- `pop(T& value)`, `ringbuffer.hpp:109-118` (and `pop()`, `:103-107`, which discards the value).
Returns the popped value if `true` is returned, and `none` for `false`. -/
def pop (r : Ring α) : Res (Option α × Ring α) := do
  if r.empty then return (none, r)
  let value ← rd r.buf r.tail
  let tail ← umod (r.tail + 1) r.buf.length
  return (some value, { r with tail, isFull := false, overwritten := 0 })

/-- The loop of `pop(T* buffer, size_t length)`, `ringbuffer.hpp:126-129`: pops into
`dst[i], dst[i+1], ...`, `n` times.  `pop(buffer[i])` leaves `buffer[i]` alone when it fails. -/
def popLoop (r : Ring α) (dst : List α) (i : Nat) (n : Nat) : Res (List α × Ring α) :=
  match n with
  | 0 => .ok (dst, r)
  | n + 1 => do
    let (v, r) ← r.pop
    let dst ← match v with
      | some v => wr dst i v
      | none => pure dst
    r.popLoop dst (i + 1) n

/-- `pop(T* buffer, size_t length)`, `ringbuffer.hpp:120-132`.  `dst` is the caller's memory block
starting at `buffer`; writing outside it is undefined behaviour.  Returns the number of elements
popped and the caller's memory afterwards. -/
def popMany (r : Ring α) (dst : List α) (length : Nat) : Res ((Nat × List α) × Ring α) := do
  if r.usedSpace < length then return ((0, dst), r)
  let (dst, r) ← r.popLoop dst 0 length
  return ((length, dst), r)

/-- `peek_at(T& value, size_t index) const`, `ringbuffer.hpp:134-141`. -/
def peekAt (r : Ring α) (index : Nat) : Res (Option α) := do
  if index ≥ r.usedSpace then return none
  let tail ← umod (r.tail + index) r.buf.length
  let value ← rd r.buf tail
  return some value

/-- `peek_at(T** ptr, size_t index)`, `ringbuffer.hpp:143-149`, for a non-null `ptr`: the resulting
pointer is the storage position returned here. -/
def peekPtrAt (r : Ring α) (index : Nat) : Res (Option Nat) := do
  if index ≥ r.usedSpace then return none
  let tail ← umod (r.tail + index) r.buf.length
  return some tail

/-- `retract_head(n)`, `ringbuffer.hpp:68`. -/
def retractHead (r : Ring α) (n : Nat) : Res (Ring α) := do
  let k ← umod n r.buf.length
  let head ← umod (r.head + r.buf.length - k) r.buf.length
  return { r with head }

/-- `advance_tail(n)`, `ringbuffer.hpp:65`. -/
def advanceTail (r : Ring α) (n : Nat) : Res (Ring α) := do
  let tail ← umod (r.tail + n) r.buf.length
  return { r with tail }

/-- `drop_last(n)`, `ringbuffer.hpp:151-159`.  `m_overwritten - n` is a `size_t` subtraction, and
`std::max(0, x)` of an unsigned `x` is `x`. -/
def dropLast (r : Ring α) (n : Nat) : Res (Nat × Ring α) := do
  let n := min r.usedSpace n
  let r ← r.retractHead n
  return (n, { r with isFull := false, overwritten := max 0 (usub r.overwritten n) })

/-- `drop_first(n)`, `ringbuffer.hpp:161-169`.  Note that `used_space()` in the last statement is
evaluated after the tail has advanced. -/
def dropFirst (r : Ring α) (n : Nat) : Res (Nat × Ring α) := do
  let n := min r.usedSpace n
  let r ← r.advanceTail n
  let r := { r with isFull := false }
  return (n, { r with overwritten := min r.overwritten (usub r.usedSpace n) })

/-- `clear()`, `ringbuffer.hpp:43`. -/
def clear (r : Ring α) : Res (Ring α) := do
  let (_, r) ← r.dropLast r.usedSpace
  return r

/-! ## Histories of calls -/

/-- A call of the public interface with its arguments. -/
inductive Op (α : Type)
  | push (v : α) (rollover : Bool)
  | pushMany (vs : List α) (rollover : Bool)
  | pop
  | popMany (dst : List α) (length : Nat)
  | peekAt (index : Nat)
  | dropLast (n : Nat)
  | dropFirst (n : Nat)
  | clear
  | usedSpace
  | freeSpace
  | empty
  | full
  | capacity
  deriving DecidableEq, Repr

/-- What the caller sees of a call. -/
inductive Out (α : Type)
  | bool (b : Bool)
  | num (n : Nat)
  | val (v : Option α)
  | block (n : Nat) (dst : List α)
  | unit
  deriving DecidableEq, Repr

/-- One call on the model. -/
def step (r : Ring α) : Op α → Res (Out α × Ring α)
  | .push v ro => do let (d, r) ← r.push v ro; return (.bool d, r)
  | .pushMany vs ro => do let (n, r) ← r.pushMany vs ro; return (.num n, r)
  | .pop => do let (v, r) ← r.pop; return (.val v, r)
  | .popMany dst n => do let ((n, dst), r) ← r.popMany dst n; return (.block n dst, r)
  | .peekAt i => do let v ← r.peekAt i; return (.val v, r)
  | .dropLast n => do let (n, r) ← r.dropLast n; return (.num n, r)
  | .dropFirst n => do let (n, r) ← r.dropFirst n; return (.num n, r)
  | .clear => do let r ← r.clear; return (.unit, r)
  | .usedSpace => return (.num r.usedSpace, r)
  | .freeSpace => return (.num r.freeSpace, r)
  | .empty => return (.bool r.empty, r)
  | .full => return (.bool r.full, r)
  | .capacity => return (.num r.capacity, r)

/-- A history of calls: the outputs in order, and the final object. -/
def run (r : Ring α) : List (Op α) → Res (List (Out α) × Ring α)
  | [] => .ok ([], r)
  | op :: ops => do
    let (o, r) ← r.step op
    let (os, r) ← r.run ops
    return (o :: os, r)

/-- `r` is the object after some history of calls on a fresh ring buffer of capacity `n`. -/
def Reachable (n : Nat) (r : Ring α) : Prop :=
  ∃ (b : Build) (init : α) (r₀ : Ring α) (ops : List (Op α)) (outs : List (Out α)),
    create b n init = .ok r₀ ∧ r₀.run ops = .ok (outs, r)

/-- What a caller can observe of the contents: `used_space()` elements, the `i`-th oldest being
reported by `peek_at(i)`. -/
def Holds (r : Ring α) (q : List α) : Prop :=
  r.usedSpace = q.length ∧ ∀ i, r.peekAt i = .ok q[i]?

end Ring
end Spine
