import Verif.Core.Outcome
/-!
# Specification: a switch that is observed from time to time
-/

namespace Spine

/-- The changes seen in a series of observations (time, on or off), starting in state `cur`. -/
def switches (cur : Bool) : List (Int × Bool) → List (Int × Bool)
  | [] => []
  | (t, s) :: l => if s = cur then switches cur l else (t, s) :: switches s l

/-- Dated values in order of time, none before `lo`, none after `hi`. -/
def Times {α : Type} (lo : Int) (rs : List (Int × α)) (hi : Int) : Prop :=
  (rs.map Prod.fst).Pairwise (· ≤ ·) ∧ ∀ r ∈ rs, lo ≤ r.1 ∧ r.1 ≤ hi

instance {α : Type} (lo : Int) (rs : List (Int × α)) (hi : Int) : Decidable (Times lo rs hi) := by unfold Times; infer_instance

end Spine
