import Verif.Model.Timers
import Verif.Core.Arith
/-!
# Model of `spn::controller::PIDController` and `spn::controller::PID`

`/repo/src/spine/controller/implementations/pid/pid_controller.{hpp,cpp}` and `/repo/src/spine/controller/pid.{hpp,cpp}`, over any
arithmetic `F`.  The controller reads and writes three variables of the user through pointers; the model keeps these variables
(`input`, `output`, `setpoint`) in the same record, which is what `PID` does (`pid.hpp:96-98`).  Times in ms.
-/

namespace Spine

variable {F : Type} [Arith F]

/-- The literal 0. -/
def fzero : F := Arith.ofRat 0

/-- `PIDController`, `pid_controller.hpp:51-70`, with the user's variables. -/
structure Pid (F : Type) where
  kp : F
  ki : F
  kd : F
  /-- `_controller_direction == REVERSE` -/
  reverse : Bool
  input : F
  output : F
  setpoint : F
  lastTime : Int
  cumulative : F
  lastReading : F
  sampling : Int
  lo : F
  hi : F
  /-- `_proportionality == ON_MEASUREMENT` -/
  onMeasurement : Bool
  deriving DecidableEq

namespace Pid

/-- `if (x > hi) x = hi; else if (x < lo) x = lo;`, `pid_controller.cpp:26-30`, `44-46`, `57-59`, `75-77`, `79-81`. -/
def clamp (lo hi x : F) : F := if Arith.lt hi x then hi else if Arith.lt x lo then lo else x

/-- `_kp = 0 - _kp` and so on, `pid_controller.cpp:96-98`, `104-106`. -/
def negate (s : Pid F) : Pid F := { s with kp := Arith.sub fzero s.kp, ki := Arith.sub fzero s.ki, kd := Arith.sub fzero s.kd }

/-- `set_tunings`, `pid_controller.cpp:84-100`. -/
def setTunings (b : Build) (s : Pid F) (kp ki kd : F) (onMeasurement : Bool) : Res (Pid F) := do
  spnAssert b (Arith.le fzero kp && Arith.le fzero ki && Arith.le fzero kd)
  spnAssert b (← msGt s.sampling 0)
  let secs : F := Arith.div (Arith.ofRat s.sampling) (Arith.ofRat 1000)
  let s := { s with onMeasurement, kp, ki := Arith.mul ki secs, kd := Arith.div kd secs }
  return if s.reverse then s.negate else s

/-- `set_controller_direction`, `pid_controller.cpp:102-109`. -/
def setDirection (s : Pid F) (reverse : Bool) : Pid F := if reverse != s.reverse then { s.negate with reverse } else s

/-- The constructor, `pid_controller.cpp:8-18`, with the member initialisers of the header; the pointers are not null. -/
def create (b : Build) (now : Int) (input output setpoint kp ki kd : F) (onMeasurement reverse : Bool) : Res (Pid F) := do
  let s : Pid F := { kp := fzero, ki := fzero, kd := fzero, reverse := false, input, output, setpoint, lastTime := 0, cumulative := fzero,
                     lastReading := fzero, sampling := 100, lo := fzero, hi := Arith.ofRat 255, onMeasurement := true }
  let s ← (s.setDirection reverse).setTunings b kp ki kd onMeasurement
  return { s with lastTime := ← msSub now s.sampling }

/-- `initialize`, `pid_controller.cpp:23-31`. -/
def start (s : Pid F) : Pid F := { s with cumulative := clamp s.lo s.hi s.output, lastReading := s.input }

/-- The computation of `update`, `pid_controller.cpp:35-65`. -/
def compute (s : Pid F) (now : Int) : Pid F :=
  let error := Arith.sub s.setpoint s.input
  let dInput := Arith.sub s.input s.lastReading
  let c := Arith.add s.cumulative (Arith.mul s.ki error)
  let c := if s.onMeasurement then Arith.sub c (Arith.mul s.kp dInput) else c
  let c := clamp s.lo s.hi c
  let o := if s.onMeasurement then fzero else Arith.mul s.kp error
  let o := Arith.add o (Arith.sub c (Arith.mul s.kd dInput))
  { s with cumulative := c, output := clamp s.lo s.hi o, lastReading := s.input, lastTime := now }

/-- `timeChange >= _sampling_time` on `k_time_ms`: the right operand passes through a float. -/
def msGe (a b : Int) : Res Bool := do return decide (a ≥ (← KTime.fromOther .milli .milli b))

/-- `update`, `pid_controller.cpp:33-68`; the flag is its result. -/
def update (s : Pid F) (now : Int) : Res (Bool × Pid F) := do
  if ← msGe (← msSub now s.lastTime) s.sampling then return (true, s.compute now) else return (false, s)

/-- `set_output_limits`, `pid_controller.cpp:70-82`. -/
def setLimits (s : Pid F) (lo hi : F) : Pid F :=
  if Arith.le hi lo then s else { s with lo, hi, output := clamp lo hi s.output, cumulative := clamp lo hi s.cumulative }

/-- `set_sampling_time`, `pid_controller.cpp:111-119`; the ratio is a quotient of 64-bit integers. -/
def setSampling (s : Pid F) (t : Int) : Res (Pid F) := do
  if ← msGt t 0 then
    if s.sampling = 0 then throw .ub
    let ratio : F := Arith.ofRat (Int.tdiv t s.sampling)
    return { s with ki := Arith.mul s.ki ratio, kd := Arith.div s.kd ratio, sampling := t }
  else return s

/-- What can happen to a controller; the user does not write the output variable. -/
inductive Op (F : Type)
  | input (v : F)
  | setpoint (v : F)
  | update (now : Int)
  | tunings (kp ki kd : F) (onMeasurement : Bool)
  | direction (reverse : Bool)
  | sampling (t : Int)
  | limits (lo hi : F)
  | start

/-- One operation. -/
def exec (b : Build) (s : Pid F) : Op F → Res (Pid F)
  | .input v => .ok { s with input := v }
  | .setpoint v => .ok { s with setpoint := v }
  | .update now => do return (← s.update now).2
  | .tunings kp ki kd m => s.setTunings b kp ki kd m
  | .direction r => .ok (s.setDirection r)
  | .sampling t => s.setSampling t
  | .limits lo hi => .ok (s.setLimits lo hi)
  | .start => .ok s.start

/-- A history of operations. -/
def run (b : Build) (s : Pid F) : List (Op F) → Res (Pid F)
  | [] => .ok s
  | op :: ops => do run b (← s.exec b op) ops

end Pid

/-- `PID::Config`, `pid.hpp:27-36`. -/
structure PidConfig (F : Type) where
  kp : F
  ki : F
  kd : F
  lower : F
  upper : F
  interval : Int := 100
  onMeasurement : Bool := false
  reverse : Bool := false

/-- The defaults of `PID::Config`. -/
def PidConfig.default : PidConfig F :=
  { kp := Arith.ofRat 20, ki := Arith.ofRat (3 / 10), kd := Arith.ofRat (1 / 10), lower := fzero, upper := Arith.ofRat 255 }

namespace PID
open Pid

variable (cfg : PidConfig F)

/-- The constructor, `pid.cpp:5-10`: always `ON_MEASUREMENT`; the three variables start at 0 (`pid.hpp:96-98`). -/
def create (b : Build) (now : Int) : Res (Pid F) := do
  let s ← Pid.create b now fzero fzero fzero cfg.kp cfg.ki cfg.kd true cfg.reverse
  spnAssert b (decide (cfg.interval > 0))
  return s

/-- `initialize`, `pid.cpp:12-16`. -/
def start (s : Pid F) : Res (Pid F) := do
  let s ← (s.setLimits cfg.lower cfg.upper).setSampling cfg.interval
  return s.start

/-- `new_reading(value, now)`, `pid.cpp:20-23`; the flag is the result of the backend's `update`. -/
def newReading (s : Pid F) (value : F) (now : Int) : Res (Bool × Pid F) := { s with input := value }.update now

/-- `response()`, `pid.hpp:80-83`, with `isnan` of the arithmetic. -/
def response (b : Build) (isnan : F → Bool) (s : Pid F) : Res F := do
  spnAssert b (!isnan s.output)
  return s.output

/-- What a user does with a `PID` after constructing it: `initialize`, readings, `set_target_setpoint`, `set_tunings`
(`pid.hpp:55-60`). -/
inductive Op (F : Type)
  | start
  | reading (value : F) (now : Int)
  | setpoint (v : F)
  | tunings (kp ki kd : F) (onMeasurement : Bool)

/-- One operation. -/
def exec (b : Build) (s : Pid F) : Op F → Res (Pid F)
  | .start => PID.start cfg s
  | .reading v now => do return (← newReading s v now).2
  | .setpoint v => .ok { s with setpoint := v }
  | .tunings kp ki kd m => s.setTunings b kp ki kd m

/-- A history of operations. -/
def run (b : Build) (s : Pid F) : List (Op F) → Res (Pid F)
  | [] => .ok s
  | op :: ops => do run b (← exec cfg b s op) ops

/-- A series of readings with their times; which of them led to a computation. -/
def readings (s : Pid F) : List (Int × F) → Res (List Bool × Pid F)
  | [] => .ok ([], s)
  | (now, v) :: rs => do
    let (f, s) ← newReading s v now
    let (fs, s) ← readings s rs
    return (f :: fs, s)

end PID
end Spine
