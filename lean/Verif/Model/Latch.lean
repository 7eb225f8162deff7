import Verif.Model.Timers
import Verif.Core.Arith
/-!
# Model of `spn::controller::SRLatch`

`/repo/src/spine/controller/sr_latch.hpp` and `sr_latch.cpp`.  Readings and thresholds are of any type with comparisons.  The
clock stands still during a call.
-/

namespace Spine

variable {F : Type} [Arith F]

/-- `SRLatch::Config`, `sr_latch.hpp:18-25`; times in ms. -/
structure LatchConfig (F : Type) where
  high : F
  low : F
  minOn : Int := 0
  maxOn : Int := 0
  minOff : Int := 0
  maxOff : Int := 0

/-- `SRLatch`, `sr_latch.hpp:45-46`. -/
structure Latch where
  /-- `_value == ON` -/
  on : Bool
  /-- `_last_turned` -/
  turned : Timer
  deriving DecidableEq, Repr

namespace Latch

variable (cfg : LatchConfig F)

/-- The constructor, `sr_latch.hpp:29`. -/
def create (now : Int) : Res Latch := do return ⟨false, Timer.create (← msSub now cfg.minOff)⟩

/-- `set(state)`, `sr_latch.hpp:37-40`. -/
def set (state : Bool) (now : Int) : Latch := ⟨state, Timer.create now⟩

/-- `_last_turned.time_since_last(Timer::NoReset)`. -/
def since (l : Latch) (now : Int) : Res Int := do return (← l.turned.timeSinceLast now now false).1

/-- `a && b`: `b` is evaluated only if `a` holds. -/
def both (a : Bool) (b : Res Bool) : Res Bool := if a then b else .ok false

/-- `new_reading(value)`, `sr_latch.cpp:5-30`. -/
def newReading (l : Latch) (now : Int) (value : F) : Res Latch := do
  if ← both l.on (do KTime.lt .milli .milli (← l.since now) cfg.minOn) then return l
  else if ← both (!l.on) (do KTime.lt .milli .milli (← l.since now) cfg.minOff) then return l
  else if ← both ((← KTime.ne .milli .milli cfg.maxOn 0) && l.on) (do msGt (← l.since now) cfg.maxOn) then return set false now
  else if ← both ((← KTime.ne .milli .milli cfg.maxOff 0) && !l.on) (do msGt (← l.since now) cfg.maxOff) then return set true now
  else if Arith.lt cfg.high value then return set true now
  else if Arith.lt value cfg.low then return set false now
  else return l

/-- A history of readings, each with its time; the responses after each. -/
def run (l : Latch) : List (Int × F) → Res (List Bool × Latch)
  | [] => .ok ([], l)
  | (now, v) :: rs => do
    let l ← l.newReading cfg now v
    let (os, l') ← run l rs
    return (l.on :: os, l')

/-- The responses after each reading of a latch made at `t0`. -/
def responses (t0 : Int) (rs : List (Int × F)) : Res (List Bool) := do return (← run cfg (← create cfg t0) rs).1

/-- `response()` after the readings `rs`, `sr_latch.hpp:34`. -/
def response (t0 : Int) (rs : List (Int × F)) : Res Bool := do return (← run cfg (← create cfg t0) rs).2.on

end Latch
end Spine
