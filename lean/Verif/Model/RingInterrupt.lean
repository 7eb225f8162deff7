import Verif.Model.RingBuffer
/-!
# A ring buffer shared with an interrupt handler

`/repo/src/spine/structure/ringbuffer.hpp`. The main program is in the middle of `pop(T&)` or `push` when an interrupt
handler calls the other one; the handler itself is not interrupted. The statements of the interrupted function are
executed one by one, in the order in which they are written, each access to a data member being indivisible. The C++ standard does
not promise even this for plain data members (it is a data race), nor do compilers; so this is the best case.
-/

namespace Spine.Ring

variable {α : Type}

/-- The handler calls `push(v)` for each value. Returns the values for which it returned true. -/
def isrPush (r : Ring α) : List α → Res (List α × Ring α)
  | [] => .ok ([], r)
  | v :: vs => do
    let (done, r) ← r.push v false
    let (acc, r) ← r.isrPush vs
    return (if done then v :: acc else acc, r)

/-- The handler calls `pop(value)` `k` times. Returns the values for which it returned true. -/
def isrPop (r : Ring α) : Nat → Res (List α × Ring α)
  | 0 => .ok ([], r)
  | k + 1 => do
    let (v, r) ← r.pop
    let (vs, r) ← r.isrPop k
    return (v.toList ++ vs, r)

/-- `pop(T& value)`, `ringbuffer.hpp:109-118`, with `empty()`, `ringbuffer.hpp:46`, interrupted by pushes: of `a0` after `m_is_full`
was read, of `a1` after `empty()` returned, of `a2` after the value was read, of `a3` after `m_tail` was written, of `a4` after
`m_is_full` was written. Returns the popped value and the values pushed successfully. `m_tail` is only written by this function,
so reading and writing it in one step makes no difference. -/
def popInterrupted (r : Ring α) (a0 a1 a2 a3 a4 : List α) : Res ((Option α × List α) × Ring α) := do
  let wasFull := r.isFull
  let (c0, r) ← r.isrPush a0
  if !wasFull && r.head == r.tail then return ((none, c0), r)
  let (c1, r) ← r.isrPush a1
  let value ← rd r.buf r.tail
  let (c2, r) ← r.isrPush a2
  let tail ← umod (r.tail + 1) r.buf.length
  let (c3, r) ← isrPush { r with tail } a3
  let (c4, r) ← isrPush { r with isFull := false } a4
  return ((some value, c0 ++ c1 ++ c2 ++ c3 ++ c4), { r with overwritten := 0 })

/-- `push(const T& value, bool rollover)`, `ringbuffer.hpp:79-91`, without rollover, interrupted by `k0` pops after `m_is_full` was read,
`k1` pops after the value was written, `k2` pops after `m_head` was written and `k3` pops after `m_head` and `m_tail` were compared.
Returns what `push` returns and the values popped. -/
def pushInterrupted (r : Ring α) (value : α) (k0 k1 k2 k3 : Nat) : Res ((Bool × List α) × Ring α) := do
  if r.isFull then return ((false, []), r)
  let (p0, r) ← r.isrPop k0
  let buf ← wr r.buf r.head value
  let (p1, r) ← isrPop { r with buf } k1
  let head ← umod (r.head + 1) r.buf.length
  let (p2, r) ← isrPop { r with head } k2
  if r.head = r.tail then
    let (p3, r) ← r.isrPop k3
    return ((true, p0 ++ p1 ++ p2 ++ p3), { r with isFull := true })
  else
    let (p3, r) ← r.isrPop k3
    if r.isFull then
      let tail ← umod (r.tail + 1) r.buf.length
      return ((true, p0 ++ p1 ++ p2 ++ p3), { r with tail, overwritten := uadd r.overwritten 1 })
    else return ((true, p0 ++ p1 ++ p2 ++ p3), r)

end Spine.Ring
