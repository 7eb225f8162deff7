import Verif.Model.Units
/-!
# Model of `spn::structure::time` timers

`/repo/src/spine/structure/time/timers.cpp` and `timers.hpp`.  All times are `k_time_ms`, with the operators of
`Verif/Model/Units.lean`; the reading of `HAL::millis()` is an argument `now`.  Copies and assignments between
`k_time_ms` values are exact (`unit.hpp:23-26`).
-/

namespace Spine

/-- `a + b` for `k_time_ms`. -/
abbrev msAdd (a b : Int) : Res Int := KTime.add .milli .milli a b
/-- `a - b` for `k_time_ms`. -/
abbrev msSub (a b : Int) : Res Int := KTime.sub .milli .milli a b
/-- `a <= b` for `k_time_ms`. -/
abbrev msLe (a b : Int) : Res Bool := KTime.le .milli .milli a b
/-- `a > b` for `k_time_ms`. -/
abbrev msGt (a b : Int) : Res Bool := KTime.gt .milli .milli a b

/-- `Timer`, `timers.hpp:24`. -/
structure Timer where
  /-- `_last` -/
  last : Int
  deriving DecidableEq, Repr

namespace Timer

/-- `Timer(millis_epoch)`, `timers.cpp:5`, and `reset`, `timers.cpp:13`. -/
def create (epoch : Int) : Timer := ⟨epoch⟩

/-- `time_since_last(reset)`, `timers.cpp:7-11`.  `later` is the second reading of the clock, made by `reset()`. -/
def timeSinceLast (t : Timer) (now later : Int) (reset : Bool) : Res (Int × Timer) := do
  let d ← msSub now t.last
  return (d, if reset then ⟨later⟩ else t)

end Timer

/-- `AlarmTimer`, `timers.hpp:44-45`. -/
structure Alarm where
  /-- `_future` -/
  future : Int
  /-- `_expired` -/
  expired : Bool
  deriving DecidableEq, Repr

namespace Alarm

/-- `AlarmTimer(future, absolute)`, `timers.cpp:19-21`. The condition of the assertion is only evaluated in debug builds. -/
def create (b : Build) (now future : Int) (absolute : Bool) : Res Alarm := do
  let f ← if absolute then .ok future else msAdd now future
  if absolute ∧ b = .debug then
    let c ← msGt future now
    spnAssert b c
  return ⟨f, false⟩

/-- `expired()`, `timers.cpp:23-33`. -/
def poll (a : Alarm) (now : Int) : Res (Bool × Alarm) :=
  if a.expired then .ok (true, a)
  else do
    if ← msLe a.future now then return (true, { a with expired := true })
    else return (false, a)

/-- `time_from_now()`, `timers.cpp:35`. -/
def timeFromNow (a : Alarm) (now : Int) : Res Int := msSub a.future now

end Alarm

/-- `IntervalTimer`, `timers.hpp:69-71`. -/
structure Interval where
  /-- `_previous` -/
  previous : Int
  /-- `_interval` -/
  interval : Int
  /-- `_allow_catch_up` -/
  catchUp : Bool
  deriving DecidableEq, Repr

namespace Interval

/-- `IntervalTimer(sampling_interval, allow_catch_up)`, `timers.cpp:41-42`. -/
def create (now interval : Int) (catchUp : Bool) : Interval := ⟨now, interval, catchUp⟩

/-- `expired()`, `timers.cpp:44-56`. -/
def poll (t : Interval) (now : Int) : Res (Bool × Interval) := do
  let d ← msSub now t.previous
  if ← msGt d t.interval then
    if t.catchUp then
      let p ← msAdd t.previous t.interval
      return (true, { t with previous := p })
    else return (true, { t with previous := now })
  else return (false, t)

/-- `reset()`, `timers.cpp:58`. -/
def reset (t : Interval) (now : Int) : Interval := { t with previous := now }

/-- `future()`, `timers.cpp:60`. -/
def future (t : Interval) : Res Int := msAdd t.previous t.interval

/-- `time_until_next()`, `timers.cpp:62`. -/
def timeUntilNext (t : Interval) (now : Int) : Res Int := do msSub (← t.future) now

end Interval
end Spine
