import Verif.Model.Platform
/-!
# Model of the time a fade takes

`fade_to` of `/repo/src/spine/platform/gpio.cpp` once more, with the pauses between its steps, on the clock of the mock platform (`mock.hpp:220-223`). The calls of `set_value`
themselves take no time.
-/

namespace Spine.Fade

variable {F : Type} [RoundArith F]

/-- The loop, `gpio.cpp:20-25`: the values given to `set_value`, each with the time of the clock (`millis` of the mock's state) at the call, and the clock at the end. `HAL::delay` is `platform.hpp:96`
and `mock.hpp:223`. -/
def timedLoop (up : Bool) (increment : F) (interval : Int) : Nat → F → F → MockClock → Res (List (Int × F) × MockClock)
  | 0, _, _, _ => .error .fuel
  | n + 1, value, diff, c =>
    if Arith.lt fzero diff then do
      let v ← next up value increment
      let c' ← c.delayMs interval
      let (rest, c'') ← timedLoop up increment interval n v (Arith.sub diff increment) c'
      return ((c.ms, v) :: rest, c'')
    else .ok ([], c)

/-- `fade_to`, `gpio.cpp:9-26`. -/
def timed (b : Build) (fuel : Nat) (interval : Int) (value setpoint increment : F) (c : MockClock) : Res (List (Int × F) × MockClock) := do
  spnAssert b (Arith.le fzero setpoint && Arith.le setpoint (Arith.ofRat 1))
  let diff := distance value setpoint increment
  if Arith.lt diff increment then .ok ([(c.ms, setpoint)], c)
  else timedLoop (!Arith.lt setpoint value) increment interval fuel value diff c

end Spine.Fade
