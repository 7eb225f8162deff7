import Verif.Model.Tuner
/-!
# Model of `PID::autotune`

`/repo/src/spine/controller/pid.cpp:25-133`, with the functions it is given.  `Verif/Model/Tuner.lean` has the tuner, and the tuning loop
for a given series of readings; here the readings and the time come from the process that is tuned.

The functions given to `autotune` act on a state of the world of any type.  Simplifications: they return and do not throw; reading a
clock changes nothing; the arguments that are only computed for log messages of the tuning loop are left out (`pid.cpp:102-103`, `113`).
-/

namespace Spine

/-- The functions given to `autotune`, `pid.cpp:25-27`, and `HAL::millis()`, which `AlarmTimer` uses. -/
structure Plant (σ F : Type) where
  /-- `process_getter` -/
  get : σ → F × σ
  /-- `process_setter` -/
  set : F → σ → σ
  /-- `loop`, which may be empty -/
  loop : Option (σ → σ)
  /-- `uptime` -/
  uptime : σ → Int
  /-- `sleep` -/
  sleep : Int → σ → σ
  /-- `HAL::millis()` -/
  millis : σ → Int

namespace Plant

variable {σ F : Type} [Arith F]

/-- `if (loop) loop();`, `pid.cpp:36`, `42`, and `125-127`. -/
def tick (E : Plant σ F) (w : σ) : σ :=
  match E.loop with
  | some f => f w
  | none => w

/-- The first loop of `block_until_setpoint`, `pid.cpp:34-40`. `logs`: whether the arguments of `SPN_DBG` are evaluated, which include a
reading. -/
def heat (E : Plant σ F) (logs : Bool) (upper setpoint : F) (timeout : Int) : Nat → Alarm → σ → Res σ
  | 0, _, _ => .error .fuel
  | n + 1, a, w => do
    let (x, w) := E.get w
    if Arith.lt x setpoint then
      let (e, a) ← a.poll (E.millis w)
      if !e || (← KTime.eq .milli .milli timeout 0) then
        let w := E.tick (E.set upper w)
        let w := if logs then (E.get w).2 else w
        heat E logs upper setpoint timeout n a (E.sleep 1000 w)
      else return w
    else return w

/-- `block_until_setpoint(startpoint, k_time_m(30), true)`, `pid.cpp:31-43` and `51-53`. The rest of `block_until_setpoint`, `pid.cpp:44-48`, is
never reached, as `saturated` is true in the only call. `satured_at_start` of the configuration is not used. -/
def preheat (E : Plant σ F) (b : Build) (logs : Bool) (lower upper startpoint : F) (fuel : Nat) (w : σ) : Res σ :=
  if Arith.lt fzero startpoint then do
    let timeout ← KTime.convert .minute .milli 30
    let a ← Alarm.create b (E.millis w) timeout false
    let w ← heat E logs upper startpoint timeout fuel a w
    return E.tick (E.set lower w)
  else .ok w

/-- Waiting for the end of the interval, `pid.cpp:123-129`. -/
def wait (E : Plant σ F) (interval start : Int) : Nat → σ → Res σ
  | 0, _ => .error .fuel
  | n + 1, w => do
    if ← KTime.lt .milli .milli (← msSub (E.uptime w) start) interval then
      wait E interval start n (E.sleep 1 (E.tick w))
    else return w

/-- The report at the end of a cycle, `pid.cpp:98-105`: `previous_cycle` and `previous_cycle_start`. -/
def report (cycle cycles : Int) (previous previousStart now : Int) : Res (Int × Int) := do
  if cycle = (← i32 (previous + 1)) then
    let duration ← msSub now previousStart
    let _ ← KTime.scale duration (← i32 (cycles - cycle))
    return (previous + 1, now)
  else return (previous, previousStart)

/-- The tuning loop, `pid.cpp:94-131`, with `process_setter(0)` at the end, `pid.cpp:131`. -/
def tuning (E : Plant σ F) (b : Build) (lower upper : F) (interval : Int) (fuel : Nat) : Nat → Tuner F → Int → Int → σ → Res (σ × Tuner F)
  | 0, _, _, _, _ => .error .fuel
  | n + 1, t, previous, previousStart, w =>
    if t.finished then .ok (E.set fzero w, t)
    else do
      let start := E.uptime w
      let (previous, previousStart) ← report t.cycle t.cycles previous previousStart (E.uptime w)
      let (x, w) := E.get w
      let t ← t.step x start
      spnAssert b (Arith.le lower t.outputValue)
      spnAssert b (Arith.le t.outputValue upper)
      let w ← wait E interval start fuel (E.set t.outputValue w)
      tuning E b lower upper interval fuel n t previous previousStart w

/-- `TuneConfig`, `pid.hpp:38-45`. `hysteresis` is its absolute value, see `Tuner.start`. -/
structure Config (F : Type) where
  setpoint : F
  startpoint : F
  hysteresis : F
  cycles : Int
  mode : ZnMode

/-- `autotune`, `pid.cpp:25-133`: the world and the tuner at the end, which has the gains. The result is `.error .fuel` if one of the loops takes `fuel` iterations. -/
def autotune (E : Plant σ F) (b : Build) (logs : Bool) (lower upper : F) (interval : Int) (c : Config F) (fuel : Nat) (w : σ) :
    Res (σ × Tuner F) := do
  let w ← preheat E b logs lower upper c.startpoint fuel w
  let now := E.uptime w
  let t := Tuner.start c.setpoint c.hysteresis interval lower upper c.mode c.cycles now
  tuning E b lower upper interval fuel fuel t 0 now w

end Plant
end Spine
