import Verif.Model.Units
/-!
# Specification of kernel time

What the unit names mean, independently of the magnitudes the code computes with.
-/

namespace Spine

/-- The length of a unit in seconds. -/
def Mag.seconds : Mag → Rat
  | .micro => 1 / 1000000
  | .milli => 1 / 1000
  | .base => 1
  | .minute => 60
  | .hour => 3600
  | .day => 86400

/-- How many units `to` make up one unit `from`. -/
def Mag.per (a b : Mag) : Rat := a.seconds / b.seconds

/-- The values a `time_t` can hold. -/
def InI64 (n : Int) : Prop := -2 ^ 63 ≤ n ∧ n < 2 ^ 63

end Spine
