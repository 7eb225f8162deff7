import Verif.Model.Pid
/-!
# Model of `spn::controller::PIDAutotuner` and of `PID::autotune`

`/repo/src/spine/controller/implementations/pid/pid_tuner.{hpp,cpp}`, over any arithmetic, and the tuning part of
`/repo/src/spine/controller/pid.cpp:25-133`.
-/

namespace Spine

variable {F : Type} [Arith F]

/-- `Aggressiveness`, `pid_tuner.hpp:30`. -/
inductive ZnMode
  | basic
  | less
  | none
  deriving DecidableEq, Repr

/-- `PIDAutotuner`, `pid_tuner.hpp:80-93`. -/
structure Tuner (F : Type) where
  target : F
  hysteresis : F
  loopInterval : Int
  minOutput : F
  maxOutput : F
  mode : ZnMode
  cycles : Int
  cycle : Int
  /-- `output` -/
  on : Bool
  outputValue : F
  t1 : Int
  t2 : Int
  tHigh : Int
  tLow : Int
  max : F
  min : F
  pAverage : F
  iAverage : F
  dAverage : F
  kp : F
  ki : F
  kd : F
  deriving DecidableEq

/-- The value of `int`, or undefined behaviour. -/
def i32 (v : Int) : Res Int := if -2 ^ 31 ≤ v ∧ v < 2 ^ 31 then .ok v else .error .ub

namespace Tuner

/-- A tuner after the setters `set_target_input_value`, `set_loop_interval`, `set_hysteresis` (which stores the absolute value; `hysteresis` here is
that value), `setOutputRange`, `set_aggressiveness` and `set_tuning_cycles`, `pid_tuner.hpp:41-57`, and `start_tuning_loop`,
`pid_tuner.cpp:5-14`. -/
def start (target hysteresis : F) (loopInterval : Int) (minOutput maxOutput : F) (mode : ZnMode) (cycles : Int) (now : Int) : Tuner F :=
  { target, hysteresis, loopInterval, minOutput, maxOutput, mode, cycles, cycle := 0, on := true, outputValue := maxOutput,
    t1 := now, t2 := now, tHigh := 0, tLow := 0, max := Arith.ofRat (-1000000000000), min := Arith.ofRat 1000000000000,
    pAverage := fzero, iAverage := fzero, dAverage := fzero, kp := fzero, ki := fzero, kd := fzero }

/-- `is_finished()`, `pid_tuner.hpp:73`. -/
def finished (t : Tuner F) : Bool := decide (t.cycle ≥ t.cycles)

/-- `float(M_PI)`; the double constant rounds to the same `float` as this decimal. -/
def pi : F := Arith.ofRat (314159265358979323846 / 100000000000000000000)

/-- The factors for the three modes, `pid_tuner.cpp:82-95`. -/
def factors : ZnMode → F × F × F
  | .basic => (Arith.ofRat (6 / 10), Arith.ofRat (5 / 10), Arith.ofRat (125 / 1000))
  | .less => (Arith.ofRat (33 / 100), Arith.ofRat (5 / 10), Arith.ofRat (33 / 100))
  | .none => (Arith.ofRat (2 / 10), Arith.ofRat (5 / 10), Arith.ofRat (33 / 100))

/-- The gains at the end of a cycle, `pid_tuner.cpp:56-100`. -/
def gains (t : Tuner F) : Res (F × F × F) := do
  let ku := Arith.div (Arith.mul (Arith.ofRat 4) (Arith.div (Arith.sub t.maxOutput t.minOutput) (Arith.ofRat 2)))
    (Arith.div (Arith.mul pi (Arith.sub t.max t.min)) (Arith.ofRat 2))
  let tu : F := Arith.ofRat (← i64 (t.tLow + t.tHigh))
  let (cp, ci, cd) := factors (F := F) t.mode
  let kp := Arith.mul cp ku
  let ki := Arith.mul (Arith.div kp (Arith.mul ci tu)) (Arith.ofRat t.loopInterval)
  let kd := Arith.div (Arith.mul (Arith.mul cd kp) tu) (Arith.ofRat t.loopInterval)
  return (kp, ki, kd)

/-- `max` and `min`, `pid_tuner.cpp:34-36`. -/
def extremes (t : Tuner F) (input : F) : Tuner F :=
  { t with max := if Arith.lt input t.max then t.max else input, min := if Arith.lt t.min input then t.min else input }

/-- Switching off, `pid_tuner.cpp:38-46`. -/
def switchOff (t : Tuner F) (input : F) (ms : Int) : Res (Tuner F) := do
  if t.on && Arith.lt (Arith.add t.target t.hysteresis) input then
    return { t with on := false, outputValue := t.minOutput, t1 := ms, tHigh := ← msSub ms t.t2, max := t.target }
  else return t

/-- Switching on, `pid_tuner.cpp:48-114`. -/
def switchOn (t : Tuner F) (input : F) (ms : Int) : Res (Tuner F) := do
  if !t.on && Arith.lt input (Arith.sub t.target t.hysteresis) then
    let t := { t with on := true, outputValue := t.maxOutput, t2 := ms, tLow := ← msSub ms t.t1 }
    let (kp, ki, kd) ← t.gains
    return { t with kp, ki, kd, pAverage := if t.cycle > 1 then Arith.add t.pAverage kp else t.pAverage,
                    iAverage := if t.cycle > 1 then Arith.add t.iAverage ki else t.iAverage,
                    dAverage := if t.cycle > 1 then Arith.add t.dAverage kd else t.dAverage,
                    min := t.target, cycle := ← i32 (t.cycle + 1) }
  else return t

/-- The end, `pid_tuner.cpp:116-123`. -/
def finish (t : Tuner F) : Tuner F :=
  if t.finished then
    { t with on := false, outputValue := t.minOutput, kp := Arith.div t.pAverage (Arith.ofRat (t.cycle - 1)),
             ki := Arith.div t.iAverage (Arith.ofRat (t.cycle - 1)), kd := Arith.div t.dAverage (Arith.ofRat (t.cycle - 1)) }
  else t

/-- `do_autotune(input, ms)`, `pid_tuner.cpp:16-126`; its result is `outputValue`. -/
def step (t : Tuner F) (input : F) (ms : Int) : Res (Tuner F) := do
  let t ← (t.extremes input).switchOff input ms
  let t ← t.switchOn input ms
  return t.finish

/-- A series of calls; the tuner after each. -/
def run (t : Tuner F) : List (F × Int) → Res (List (Tuner F))
  | [] => .ok []
  | (x, ms) :: l => do
    let t ← t.step x ms
    return t :: (← run t l)

end Tuner

namespace PID

/-- The tuning loop of `autotune`, `pid.cpp:94-133`: `env` lists what `process_getter()` and `uptime()` return in each iteration. The
result: the values given to `process_setter`, and the tuner at the end; `none` if the environment ends before the loop does. -/
def tuneLoop (b : Build) (lower upper : F) (t : Tuner F) : List (F × Int) → Res (Option (List F × Tuner F))
  | [] => if t.finished then .ok (some ([fzero], t)) else .ok none
  | (x, ms) :: env =>
    if t.finished then .ok (some ([fzero], t))
    else do
      let t ← t.step x ms
      spnAssert b (Arith.le lower t.outputValue)
      spnAssert b (Arith.le t.outputValue upper)
      match ← tuneLoop b lower upper t env with
      | none => return none
      | some (os, t') => return some (t.outputValue :: os, t')

end PID
end Spine
