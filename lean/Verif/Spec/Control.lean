import Verif.Model.Pid
/-!
# Specification of a PID controller
-/

namespace Spine

variable {F : Type} [Arith F]

/-- The limits in force: the last pair given with the lower one below the upper one. -/
def limitsAfter (start : F × F) : List (Pid.Op F) → F × F
  | [] => start
  | .limits lo hi :: ops => limitsAfter (if Arith.le hi lo then start else (lo, hi)) ops
  | _ :: ops => limitsAfter start ops

/-- `x` is neither above `hi` nor below `lo`; NaN counts as inside. -/
def Inside (x lo hi : F) : Prop := Arith.lt hi x = false ∧ Arith.lt x lo = false

/-- The times of those readings that led to a computation. -/
def computedAt (ts : List Int) (fs : List Bool) : List Int := ((ts.zip fs).filter (·.2)).map Prod.fst

/-! ## The discrete PID law, in exact arithmetic

`x0` is the reading before the first, `c0` the output at the start, `xs` the readings so far. -/

/-- Sum of the errors. -/
def errorSum (sp : Rat) (xs : List Rat) : Rat := (xs.map (sp - ·)).sum

/-- The reading before the last. -/
def previous (x0 : Rat) (xs : List Rat) : Rat := xs.dropLast.getLastD x0

/-- The part of the output carried over: the integral, and the proportional term if it is on the measurement. -/
def carried (onMeasurement : Bool) (kp ki sp c0 x0 : Rat) (xs : List Rat) : Rat :=
  c0 + ki * errorSum sp xs - if onMeasurement then kp * (xs.getLastD x0 - x0) else 0

/-- The output. -/
def pidLaw (onMeasurement : Bool) (kp ki kd sp c0 x0 : Rat) (xs : List Rat) : Rat :=
  (if onMeasurement then 0 else kp * (sp - xs.getLastD x0)) + carried onMeasurement kp ki sp c0 x0 xs
    - kd * (xs.getLastD x0 - previous x0 xs)

end Spine
