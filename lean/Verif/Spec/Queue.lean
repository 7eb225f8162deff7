import Verif.Model.RingBuffer
/-!
# Specification: a bounded first-in first-out queue

A queue is a list, oldest element first.  This file uses only the *types* of calls and outputs
(`Ring.Op`, `Ring.Out`) of the ring buffer model, none of its functions.
-/

namespace Spine.Queue

variable {α : Type}

/-- The newest `n` elements. -/
def newest (n : Nat) (q : List α) : List α := q.drop (q.length - n)

/-- What each call does to a queue of capacity `n`, and what it returns. -/
def step (n : Nat) (q : List α) : Ring.Op α → Ring.Out α × List α
  | .push v rollover =>
    if q.length < n then (.bool true, q ++ [v])
    else if rollover then (.bool true, q.drop 1 ++ [v])
    else (.bool false, q)
  | .pushMany vs rollover =>
    if rollover then (.num vs.length, newest n (q ++ vs))
    else (.num (min vs.length (n - q.length)), q ++ vs.take (n - q.length))
  | .pop => (.val q.head?, q.tail)
  | .popMany dst k =>
    if k ≤ q.length then (.block k (q.take k ++ dst.drop k), q.drop k) else (.block 0 dst, q)
  | .peekAt i => (.val q[i]?, q)
  | .dropLast k => (.num (min k q.length), q.take (q.length - k))
  | .dropFirst k => (.num (min k q.length), q.drop k)
  | .clear => (.unit, [])
  | .usedSpace => (.num q.length, q)
  | .freeSpace => (.num (n - q.length), q)
  | .empty => (.bool (q.length == 0), q)
  | .full => (.bool (q.length == n), q)
  | .capacity => (.num n, q)

/-- A history of calls on the queue. -/
def run (n : Nat) (q : List α) : List (Ring.Op α) → List (Ring.Out α) × List α
  | [] => ([], q)
  | op :: ops =>
    let (o, q) := step n q op
    let (os, q) := run n q ops
    (o :: os, q)

/-- The caller's side of the contract: the destination of a bulk pop has room for what is asked. -/
def CallerOk : Ring.Op α → Prop
  | .popMany dst k => k ≤ dst.length
  | _ => True

/-- The call is not a `drop_first` or `drop_last`. -/
def NotDrop : Ring.Op α → Prop
  | .dropLast _ => False
  | .dropFirst _ => False
  | _ => True

/-- The call is not `drop_first(0)` or `drop_last(0)`. -/
def NotDropZero : Ring.Op α → Prop
  | .dropLast k => 0 < k
  | .dropFirst k => 0 < k
  | _ => True

end Spine.Queue

namespace Spine.Queue

variable {α : Type}

/-- The number of elements lost to rollover since the last successful pop, after one more call:
`lost` before the call, queue `q` before the call. -/
def lostStep (n : Nat) (q : List α) (lost : Nat) : Ring.Op α → Nat
  | .push _ rollover => if rollover && q.length == n then lost + 1 else lost
  | .pushMany vs rollover => if rollover then lost + (q.length + vs.length - n) else lost
  | .pop => if q.length = 0 then lost else 0
  | .popMany _ k => if k ≤ q.length ∧ k ≠ 0 then 0 else lost
  | _ => lost

/-- The number of elements lost to rollover since the last successful pop, after a history. -/
def lost (n : Nat) (q : List α) (l : Nat) : List (Ring.Op α) → Nat
  | [] => l
  | op :: ops => lost n (step n q op).2 (lostStep n q l op) ops

/-- The call neither drops nor clears. -/
def NotDropOrClear : Ring.Op α → Prop
  | .dropLast _ => False
  | .dropFirst _ => False
  | .clear => False
  | _ => True

/-- The elements a history put into the buffer, given the outputs of its calls: every pushed element
of a push that reported success, and of a bulk push as many as it reported. -/
def accepted : List (Ring.Op α) → List (Ring.Out α) → List α
  | .push v _ :: ops, .bool true :: outs => v :: accepted ops outs
  | .pushMany vs _ :: ops, .num k :: outs => vs.take k ++ accepted ops outs
  | _ :: ops, _ :: outs => accepted ops outs
  | _, _ => []

/-- The elements a history took out of the buffer, given the outputs of its calls. -/
def delivered : List (Ring.Op α) → List (Ring.Out α) → List α
  | .pop :: ops, .val (some v) :: outs => v :: delivered ops outs
  | .popMany _ _ :: ops, .block k dst :: outs => dst.take k ++ delivered ops outs
  | _ :: ops, _ :: outs => delivered ops outs
  | _, _ => []

/-- The call does not overwrite. -/
def NoRollover : Ring.Op α → Prop
  | .push _ ro => ro = false
  | .pushMany _ ro => ro = false
  | _ => True

end Spine.Queue
