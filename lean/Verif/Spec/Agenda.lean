import Verif.Core.Outcome
/-!
# Specification: an agenda

A list of appointments in the order in which they are due; equal deadlines are served first come, first served.
-/

namespace Spine

variable {ω : Type}

/-- An entry of the agenda. -/
structure Item (ω : Type) where
  obj : ω
  deadline : Int
  /-- how many entries were made before this one -/
  arrival : Nat
  deriving DecidableEq, Repr

/-- `a` has to be served before `c`. -/
def Item.Before (a c : Item ω) : Prop := a.deadline < c.deadline ∨ (a.deadline = c.deadline ∧ a.arrival < c.arrival)

namespace Agenda

/-- Behind everything that is due earlier or at the same time. -/
def insert (x : Item ω) (q : List (Item ω)) : List (Item ω) :=
  q.takeWhile (fun y => decide (y.deadline ≤ x.deadline)) ++ x :: q.dropWhile (fun y => decide (y.deadline ≤ x.deadline))

/-- What a user does with a pipeline, and the time at which they do it. -/
inductive Op (ω : Type)
  /-- push the object with this delay -/
  | push (now : Int) (o : ω) (delay : Int)
  /-- take the first entry, which must be due -/
  | expire (now : Int)
  /-- ask whether an entry is due -/
  | due (now : Int)
  /-- ask for the time until the first entry is due -/
  | next (now : Int)
  deriving DecidableEq, Repr

/-- When an operation is done. -/
def Op.time : Op ω → Int
  | .push now _ _ => now
  | .expire now => now
  | .due now => now
  | .next now => now

/-- What an operation returns. -/
inductive Out (ω : Type)
  | unit
  | obj (o : ω)
  | bool (b : Bool)
  | time (t : Int)
  deriving DecidableEq, Repr

/-- The agenda and the number of entries made so far. -/
structure State (ω : Type) where
  items : List (Item ω)
  made : Nat
  deriving DecidableEq, Repr

/-- One operation; `none` if its precondition is violated: there must be room, an object can be in the agenda only once, delays are
between 1 and `longest`, only due entries can be taken.  `see` is the time a reading of the clock is taken for. -/
def step [DecidableEq ω] (cap : Nat) (longest : Int) (see : Int → Int) (s : State ω) : Op ω → Option (Out ω × State ω)
  | .push now o d =>
    if s.items.length < cap ∧ o ∉ s.items.map (·.obj) ∧ 0 < d ∧ d ≤ longest then
      some (.unit, { items := insert ⟨o, now + d, s.made⟩ s.items, made := s.made + 1 })
    else none
  | .expire now =>
    match s.items with
    | x :: items => if x.deadline ≤ see now then some (.obj x.obj, { s with items }) else none
    | [] => none
  | .due now => some (.bool (s.items.head?.any fun x => decide (x.deadline ≤ see now)), s)
  | .next now => some (.time (match s.items.head? with
      | some x => if x.deadline ≤ see now then 0 else x.deadline - see now
      | none => 0), s)

/-- A history. -/
def run [DecidableEq ω] (cap : Nat) (longest : Int) (see : Int → Int) (s : State ω) :
    List (Op ω) → Option (List (Out ω) × State ω)
  | [] => some ([], s)
  | op :: ops => do
    let (o, s) ← step cap longest see s op
    let (os, s) ← run cap longest see s ops
    return (o :: os, s)

end Agenda
end Spine
