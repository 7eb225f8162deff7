import Verif.Model.Schedule
/-!
# A day of 86400 seconds

What a schedule means: a block covers the seconds of its length after its start, on a clock that starts again at midnight.
-/

namespace Spine

/-- Seconds of a day. -/
def daySeconds : Int := 86400

/-- The block is active at time of day `t`: on the clock, `t` is less than the duration later than the start. -/
def covers {F : Type} (x : Block F) (t : Int) : Bool := decide ((t - x.start) % daySeconds < x.duration)

/-- The value of a day's plan at `t`. -/
def planned {F : Type} [Arith F] (plan : List (Block F)) (t : Int) : F :=
  match plan.find? (covers · t) with
  | some x => x.value
  | none => fzero

/-- `n` is the earliest of the starts after `t`, or the end of the day if there is none. -/
def IsNextStart {F : Type} (plan : List (Block F)) (t n : Int) : Prop :=
  (∀ x ∈ plan, t < x.start → n ≤ x.start) ∧ ((∃ x ∈ plan, x.start = n ∧ t < n) ∨ n = daySeconds ∧ ∀ x ∈ plan, x.start ≤ t)

end Spine
