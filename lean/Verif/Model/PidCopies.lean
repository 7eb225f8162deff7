import Verif.Model.Pid
/-!
# Model of copies of a `PID`

`/repo/src/spine/controller/pid.hpp` declares no copy or move operations. Those the compiler makes copy all members. One of them is the `PIDController`, which holds pointers to the variables
`_input`, `_output` and `_setpoint` of the object it was constructed in (`pid.cpp:7`, `pid_controller.hpp:58-60`); in a copy, these point to the variables of the original.

Here every `PID` has a number, its own variables, and the number of the object its pointers point to. Reading or writing a variable of an object that does not exist any more is undefined behaviour.
-/

namespace Spine

variable {F : Type} [Arith F]

/-- A `PID`, `pid.hpp:92-98`. `input`, `output` and `setpoint` of `pid` are the object's own variables, its other fields are those of `_pid_backend`. -/
structure PidObj (F : Type) where
  cfg : PidConfig F
  pid : Pid F
  /-- the object that `_user_input`, `_user_output` and `_user_setpoint` point into -/
  target : Nat

/-- The objects that exist. -/
abbrev Pids (F : Type) := Nat → Option (PidObj F)

namespace Pids

/-- What a program does. -/
inductive Op (F : Type)
  /-- `PID h(cfg)` at a time in ms -/
  | create (h : Nat) (cfg : PidConfig F) (now : Int)
  | call (h : Nat) (op : PID.Op F)
  /-- `PID h(other)`, `PID h(std::move(other))`, `h = other` or `h = std::move(other)` -/
  | copy (h other : Nat)
  | destroy (h : Nat)

/-- An object that exists. -/
def obj (s : Pids F) (h : Nat) : Res (PidObj F) :=
  match s h with
  | some o => .ok o
  | none => .error .ub

/-- Set an object. -/
def set (s : Pids F) (h : Nat) (o : Option (PidObj F)) : Pids F := fun k => if k = h then o else s k

/-- A function of `_pid_backend` of the object `h`, which follows its pointers: it works on the variables of the target and changes at most the output there. -/
def backend (s : Pids F) (h : Nat) (f : Pid F → Res (Pid F)) : Res (Pids F) := do
  let o ← s.obj h
  let t ← s.obj o.target
  let p ← f { o.pid with input := t.pid.input, output := t.pid.output, setpoint := t.pid.setpoint }
  let s := s.set h (some { o with pid := { p with input := o.pid.input, output := o.pid.output, setpoint := o.pid.setpoint } })
  let t ← s.obj o.target
  return s.set o.target (some { t with pid := { t.pid with output := p.output } })

/-- The constructor, `pid.cpp:5-10`. -/
def create (b : Build) (s : Pids F) (h : Nat) (cfg : PidConfig F) (now : Int) : Res (Pids F) := do
  return s.set h (some ⟨cfg, ← PID.create cfg b now, h⟩)

/-- A call on the object `h`: `initialize`, `pid.cpp:12-16`, and `new_reading`, `pid.cpp:20-23`, use `_pid_backend`, the latter follows the pointers if it is time for a computation
(`pid_controller.cpp:34`). `set_target_setpoint` and `set_tunings`, `pid.hpp:55-60`, follow no pointers. -/
def call (b : Build) (s : Pids F) (h : Nat) : PID.Op F → Res (Pids F)
  | .start => do
    let o ← s.obj h
    s.backend h (PID.start o.cfg)
  | .reading v now => do
    let o ← s.obj h
    let s := s.set h (some { o with pid := { o.pid with input := v } })
    if ← Pid.msGe (← msSub now o.pid.lastTime) o.pid.sampling then s.backend h (fun p => .ok (p.compute now)) else return s
  | .setpoint v => do
    let o ← s.obj h
    return s.set h (some { o with pid := { o.pid with setpoint := v } })
  | .tunings kp ki kd m => do
    let o ← s.obj h
    return s.set h (some { o with pid := ← o.pid.setTunings b kp ki kd m })

/-- The implicit copy and move operations. -/
def copy (s : Pids F) (h other : Nat) : Res (Pids F) := do return s.set h (some (← s.obj other))

/-- The implicit destructor. -/
def destroy (s : Pids F) (h : Nat) : Res (Pids F) := do
  let _ ← s.obj h
  return s.set h none

/-- One operation. -/
def step (b : Build) (s : Pids F) : Op F → Res (Pids F)
  | .create h cfg now => s.create b h cfg now
  | .call h op => s.call b h op
  | .copy h other => s.copy h other
  | .destroy h => s.destroy h

/-- A program. -/
def run (b : Build) (s : Pids F) : List (Op F) → Res (Pids F)
  | [] => .ok s
  | op :: ops => do run b (← s.step b op) ops

/-- `response()` of the object `h`, `pid.hpp:80-83`, without its assertion. -/
def response (s : Pids F) (h : Nat) : Res F := do return (← s.obj h).pid.output

end Pids
end Spine
