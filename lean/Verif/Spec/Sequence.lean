import Verif.Model.Vector
/-!
# Specification: a bounded sequence

A sequence is a list.  This file uses only the types of calls and results of the vector model
(`Vec.Op`, `Vec.Out`), none of its functions.
-/

namespace Spine.Seq

variable {α : Type}

/-- What a call does to a sequence of at most `n` elements and what it returns; `none` when the caller
breaks the precondition of the call: an insertion needs room, a removal or a look at an end needs an
element, an index must be in range. -/
def step (n : Nat) (q : List α) : Vec.Op α → Option (Vec.Out α × List α)
  | .pushBack x | .emplaceBack x => if q.length < n then some (.unit, q ++ [x]) else none
  | .pushFront x | .emplaceFront x => if q.length < n then some (.unit, x :: q) else none
  | .insert i x => if q.length < n then some (.unit, q.take i ++ x :: q.drop i) else none
  | .popFront _ => match q with
    | [] => none
    | x :: q => some (.val x, q)
  | .popBack _ => match q.getLast? with
    | none => none
    | some x => some (.val x, q.dropLast)
  | .remove i => match q[i]? with
    | none => none
    | some x => some (.val x, q.take i ++ q.drop (i + 1))
  | .clear => some (.unit, [])
  | .fill x => some (.unit, List.replicate n x)
  | .put i x => if i < q.length then some (.unit, q.set i x) else none
  | .get i => q[i]?.map fun x => (.val x, q)
  | .peekFront | .front => q.head?.map fun x => (.val x, q)
  | .peekBack | .back => q.getLast?.map fun x => (.val x, q)
  | .size => some (.num q.length, q)
  | .empty => some (.bool (q.length == 0), q)
  | .full => some (.bool (q.length == n), q)
  | .maxSize => some (.num n, q)

/-- A history of calls; `none` when some call breaks its precondition. -/
def run (n : Nat) (q : List α) : List (Vec.Op α) → Option (List (Vec.Out α) × List α)
  | [] => some ([], q)
  | op :: ops => do
    let (o, q) ← step n q op
    let (os, q) ← run n q ops
    return (o :: os, q)

/-- Number of copies of the value `x` that a container owns, read off the element operations it ran:
each copy made is one more, each value destroyed or handed out is one less.  For a shared pointer to an
object this is the container's share of the reference count. -/
def owned [DecidableEq α] (x : α) : List (Ev α) → Int
  | [] => 0
  | .copied v :: log => owned x log + if v = x then 1 else 0
  | .destroyed v :: log => owned x log - if v = x then 1 else 0
  | .taken v :: log => owned x log - if v = x then 1 else 0

end Spine.Seq
