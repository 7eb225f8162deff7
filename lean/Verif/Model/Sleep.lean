import Verif.Model.Platform
/-!
# Model of programs that sleep until a timer is due

`HAL::delay(timer.time_until_next())` and `HAL::delay(alarm.time_from_now())`: the timers of `/repo/src/spine/structure/time/timers.cpp` together with the delays and
clocks of the platforms, `/repo/src/spine/platform/platform.hpp` and the directory `implementations`. The clock counts whole ms; it moves on in delays, which last
as long as they are asked to, and where the program says so.
-/

namespace Spine
namespace Sleep

/-- The platforms. -/
inductive System
  | mock
  | arduino
  | zephyr
  deriving DecidableEq, Repr

/-- The time after `HAL::delay(d)`, `platform.hpp:96`, which calls `delay_ms`: `mock.hpp:223` adds to the clock, which starts without µs; `arduino.hpp:336` calls
`::delay`, which takes a 32-bit `unsigned long`; `zephyr.hpp:47` see `zephyrDelayMs`. -/
def delay (sys : System) (clock d : Int) : Res Int :=
  match sys with
  | .mock => do (← MockClock.delayMs ⟨clock, 0⟩ d).millis
  | .arduino => .ok (clock + d % 2 ^ 32)
  | .zephyr => .ok (clock + (zephyrDelayMs d).least / 1000)

/-- `HAL::millis()`, `platform.hpp:90`. -/
def millis (sys : System) (clock : Int) : Int :=
  match sys with
  | .arduino => arduinoMillis clock.toNat
  | _ => clock

/-- `HAL::delay(alarm.time_from_now())` and then `alarm.expired()`: the time, the answer and the alarm. -/
def untilAlarm (sys : System) (clock : Int) (a : Alarm) : Res (Int × Bool × Alarm) := do
  let d ← a.timeFromNow (millis sys clock)
  let clock ← delay sys clock d
  let (due, a) ← a.poll (millis sys clock)
  return (clock, due, a)

/-- A program with a timer: the time, the timer, and when the task ran, the last time first. -/
structure Loop where
  clock : Int
  timer : Interval
  runs : List Int
  deriving DecidableEq, Repr

/-- One round: `HAL::delay(timer.time_until_next()); if (timer.expired()) task();`, where `w.1` ms pass before `expired()` reads the clock and `w.2` ms after it. -/
def round (sys : System) (s : Loop) (w : Nat × Nat) : Res Loop := do
  let d ← s.timer.timeUntilNext (millis sys s.clock)
  let clock ← delay sys s.clock d
  let clock := clock + w.1
  let (due, timer) ← s.timer.poll (millis sys clock)
  return ⟨clock + w.2, timer, if due then clock :: s.runs else s.runs⟩

/-- Several rounds. -/
def rounds (sys : System) (s : Loop) : List (Nat × Nat) → Res Loop
  | [] => .ok s
  | w :: ws => do rounds sys (← round sys s w) ws

/-- A program that makes its timer and starts. -/
def start (now interval : Int) (catchUp : Bool) : Loop := ⟨now, Interval.create now interval catchUp, []⟩

end Sleep
end Spine
