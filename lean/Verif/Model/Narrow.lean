import Verif.Model.Timers
import Verif.Model.Platform
import Verif.Model.Text
/-!
# Kernel time on targets whose `time_t` has 32 bits

`KernelTimeRawType` is `time_t` (`units/primitives/raw_types.hpp:8`), whose width is up to the C library of the target; two of the default
environments of `platformio.ini` (`esp32`, `sam3x8e`) have been shipped with 32 bits.  These are the functions of `Units.lean`, `Timers.lean` and
`Text.lean` for such a target; everything but the range of a `time_t` is the same.
-/

namespace Spine
namespace Narrow

open F32

/-- Store the result of a computation in a `time_t`. -/
def i32 (n : Int) : Res Int := if -2 ^ 31 ≤ n ∧ n < 2 ^ 31 then .ok n else .error .ub

/-- `from_other`, `unit.hpp:138-143`. -/
def fromOther (other mine : Mag) (v : Int) : Res Int := i32 (roundAway (rnd (KTime.ratio other mine * rnd v)))

/-- Converting constructor and assignment, `unit.hpp:36-48`. -/
def convert (other mine : Mag) (v : Int) : Res Int := fromOther other mine v

/-- `operator+` and `+=`, `unit.hpp:50-53`, `:64-68`. -/
def add (mine other : Mag) (v w : Int) : Res Int := do i32 (v + (← fromOther other mine w))

/-- `operator-` and `-=`, `unit.hpp:54-57`, `:59-63`. -/
def sub (mine other : Mag) (v w : Int) : Res Int := do i32 (v - (← fromOther other mine w))

/-- `operator==`, `unit.hpp:102-106`. -/
def eq (mine other : Mag) (v w : Int) : Res Bool := do return decide (v = (← fromOther other mine w))

/-- `operator<`, `unit.hpp:111-114`. -/
def lt (mine other : Mag) (v w : Int) : Res Bool := do return decide (v < (← fromOther other mine w))

/-- `operator>`, `unit.hpp:115-118`. -/
def gt (mine other : Mag) (v w : Int) : Res Bool := do return decide (v > (← fromOther other mine w))

/-- `operator<=`, `unit.hpp:119-122`. -/
def le (mine other : Mag) (v w : Int) : Res Bool := do return decide (v ≤ (← fromOther other mine w))

/-- `operator>=`, `unit.hpp:123-126`. -/
def ge (mine other : Mag) (v w : Int) : Res Bool := do return decide (v ≥ (← fromOther other mine w))

/-- `HAL::millis()`, `arduino.hpp:333`, `time` ms after the start: a 32-bit `unsigned long` stored in a `time_t`. -/
def millis (time : Nat) : Int := toInt32 (time % 2 ^ 32)

/-- `AlarmTimer(future, absolute)`, `timers.cpp:19-21`. -/
def create (b : Build) (now future : Int) (absolute : Bool) : Res Alarm := do
  let f ← if absolute then .ok future else add .milli .milli now future
  if absolute ∧ b = .debug then
    let c ← gt .milli .milli future now
    spnAssert b c
  return ⟨f, false⟩

/-- `AlarmTimer::expired()`, `timers.cpp:23-33`. -/
def poll (a : Alarm) (now : Int) : Res (Bool × Alarm) :=
  if a.expired then .ok (true, a)
  else do
    if ← le .milli .milli a.future now then return (true, { a with expired := true })
    else return (false, a)

/-- Query an alarm at the given times. -/
def run (a : Alarm) : List Int → Res (List Bool)
  | [] => .ok []
  | t :: ts => do
    let (r, a) ← poll a t
    return r :: (← run a ts)

/-- `IntervalTimer::expired()`, `timers.cpp:44-56`. -/
def tick (t : Interval) (now : Int) : Res (Bool × Interval) := do
  let d ← sub .milli .milli now t.previous
  if ← gt .milli .milli d t.interval then
    if t.catchUp then
      let p ← add .milli .milli t.previous t.interval
      return (true, { t with previous := p })
    else return (true, { t with previous := now })
  else return (false, t)

/-- Query an interval timer at the given times. -/
def ticks (t : Interval) : List Int → Res (List Bool × Interval)
  | [] => .ok ([], t)
  | now :: ts => do
    let (r, t) ← tick t now
    let (rs, t) ← ticks t ts
    return (r :: rs, t)

/-- `k_time_xx(t)`: the copy constructor for the same type (`unit.hpp:23`), otherwise a conversion (`unit.hpp:36-37`). -/
def toUnit (src dst : Mag) (v : Int) : Res Int := if src = dst then .ok v else convert src dst v

/-- `raw` and `unit` of `repr`, `time_repr.hpp:39-53`. -/
def reprParts (m : Mag) (v : Int) : Res (Int × List Char) := do
  let us ← toUnit m .micro v
  if us < 1000 then return (us, ['u', 's'])
  let ms ← toUnit m .milli v
  if ms < 1000 then return (ms, ['m', 's'])
  let s ← toUnit m .base v
  if s < 900 then return (s, ['s'])
  let mins ← toUnit m .minute v
  if mins < 1440 then return (mins, ['m'])
  let h ← toUnit m .hour v
  if h < 24 then return (h, ['h'])
  let d ← toUnit m .day v
  if d > 0 then return (d, ['d'])
  return (0, "unknown".toList)

/-- `repr`, `time_repr.hpp:34-67`. -/
def repr (m : Mag) (v : Int) : Res (List Char) := do
  let (raw, unit) ← reprParts m v
  let text := Text.decimal raw ++ unit
  return if text.length ≥ 64 then "Error".toList else text

end Narrow
end Spine
