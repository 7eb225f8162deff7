import Verif.Model.Pid
import Verif.Model.Filter
/-!
# Fused multiply-add

A compiler may contract `c + a * b` into one operation that rounds once (GCC does so by default on processors that have the instruction, as the ESP32 has). Where the code of
`/repo/src/spine/controller/implementations/pid/pid_controller.cpp` and `/repo/src/spine/filter/implementations/mapped_range.hpp` multiplies and adds, the model here has a flag
that says whether that place is contracted. With all flags off it is the model of `Model/Pid.lean` and `Model/Filter.lean`. Not modelled: contraction in the units (`unit.hpp:50-68`,
`compound_unit.hpp:127`, `:153`). Everywhere else in the library, contraction changes nothing: there is no sum with a product, or the product is exact (`gpio.cpp:22`, a factor of 1 or -1).
-/

namespace Spine

open F32

namespace Fl

/-- `fmaf(a, b, c)`: `a * b + c`, rounded once. A sum of zero is `+0` unless product and summand are both `-0`. -/
def fma (a b c : Fl) : Fl :=
  match a, b, c with
  | .num s m, .num t n, .num u k =>
    let q := val (.num s m) * val (.num t n) + val (.num u k)
    if q = 0 then .num ((s != t) && u) 0 else ofRat q
  | .num _ _, .num _ _, .inf u => .inf u
  | .num _ _, .num _ _, .nan => .nan
  | a, b, c => add (mul a b) c

/-- `c + a * b`, contracted or not. -/
def mulAdd (fused : Bool) (c a b : Fl) : Fl := if fused then fma a b c else add c (mul a b)

/-- `c - a * b`, contracted or not. -/
def mulSub (fused : Bool) (c a b : Fl) : Fl := if fused then fma (neg a) b c else sub c (mul a b)

end Fl

/-- Which places of `PIDController::update` are contracted: `pid_controller.cpp:39`, `:42`, the product of `:50` with the sum of `:55`, and the product of `:55`. -/
structure Fuse where
  integral : Bool
  measurement : Bool
  proportional : Bool
  derivative : Bool
  deriving DecidableEq

/-- No contraction. -/
def Fuse.off : Fuse := ⟨false, false, false, false⟩

namespace Pid

/-- The computation of `update`, `pid_controller.cpp:35-65`. -/
def computeF (fu : Fuse) (s : Pid Fl) (now : Int) : Pid Fl :=
  let error := Fl.sub s.setpoint s.input
  let dInput := Fl.sub s.input s.lastReading
  let c := Fl.mulAdd fu.integral s.cumulative s.ki error
  let c := if s.onMeasurement then Fl.mulSub fu.measurement c s.kp dInput else c
  let c := clamp s.lo s.hi c
  let rest := Fl.mulSub fu.derivative c s.kd dInput
  let o := if s.onMeasurement then Fl.add fzero rest else if fu.proportional then Fl.fma s.kp error rest else Fl.add (Fl.mul s.kp error) rest
  { s with cumulative := c, output := clamp s.lo s.hi o, lastReading := s.input, lastTime := now }

/-- `update`, `pid_controller.cpp:33-68`. -/
def updateF (fu : Fuse) (s : Pid Fl) (now : Int) : Res (Bool × Pid Fl) := do
  if ← msGe (← msSub now s.lastTime) s.sampling then return (true, s.computeF fu now) else return (false, s)

/-- One operation, see `Pid.exec`; `set_tunings` and `set_sampling_time` have no sum with a product but `0 - x`, which rounds nothing. -/
def execF (fu : Fuse) (b : Build) (s : Pid Fl) : Op Fl → Res (Pid Fl)
  | .update now => do return (← s.updateF fu now).2
  | op => s.exec b op

/-- A history of operations. -/
def runF (fu : Fuse) (b : Build) (s : Pid Fl) : List (Op Fl) → Res (Pid Fl)
  | [] => .ok s
  | op :: ops => do runF fu b (← s.execF fu b op) ops

end Pid

namespace PID

/-- `new_reading(value, now)`, `pid.cpp:20-23`. -/
def newReadingF (fu : Fuse) (s : Pid Fl) (value : Fl) (now : Int) : Res (Bool × Pid Fl) := { s with input := value }.updateF fu now

/-- One operation on a `PID`, see `PID.exec`. -/
def execF (fu : Fuse) (cfg : PidConfig Fl) (b : Build) (s : Pid Fl) : Op Fl → Res (Pid Fl)
  | .reading v now => do return (← newReadingF fu s v now).2
  | op => exec cfg b s op

/-- A history of operations. -/
def runF (fu : Fuse) (cfg : PidConfig Fl) (b : Build) (s : Pid Fl) : List (Op Fl) → Res (Pid Fl)
  | [] => .ok s
  | op :: ops => do runF fu cfg b (← execF fu cfg b s op) ops

/-- A series of readings with their times; which of them led to a computation. -/
def readingsF (fu : Fuse) (s : Pid Fl) : List (Int × Fl) → Res (List Bool × Pid Fl)
  | [] => .ok ([], s)
  | (now, v) :: rs => do
    let (f, s) ← newReadingF fu s v now
    let (fs, s) ← readingsF fu s rs
    return (f :: fs, s)

end PID

/-- `MappedRange::value(sample)`, `mapped_range.hpp:46-60`, with the sum contracted or not. -/
def MapCfg.mapF (fused : Bool) (c : MapCfg Fl) (x : Fl) : Res (Option Fl) := do
  let scale (x : Fl) : Fl := Fl.mulAdd fused c.outLo (Fl.div (Fl.sub x c.inLo) (Fl.sub c.inHi c.inLo)) (Fl.sub c.outHi c.outLo)
  if Fl.lt x c.inLo || Fl.lt c.inHi x then
    if c.throws then return none else return some (scale (← fclamp x c.inLo c.inHi))
  else return some (scale x)

end Spine
