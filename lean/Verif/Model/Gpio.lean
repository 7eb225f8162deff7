import Verif.Model.Compound
/-!
# Model of digital and analogue outputs

`/repo/src/spine/platform/gpio.hpp`, `gpio.cpp` and the Arduino implementation, `/repo/src/spine/platform/implementations/arduino.hpp`. What reaches the
hardware is recorded: the level of the pin for a digital output, the list of values for an analogue one. Not modelled: `pinMode` (see `OutputPin`), `analogWriteResolution`
and the pauses of `fade_to` (`HAL::delay`; see `FadeTime`). The members `initialize`, `state` and `read` of the bases `DigitalInput`, `AnalogueInput` and
`Interrupt` cast a pointer to an object (`gpio.hpp:34-35`) and do not compile if used; the implementations hide them.
-/

namespace Spine

/-! ## Digital outputs -/

/-- `LogicalState`, `core/types.hpp:5`. -/
inductive Logical
  | off | on | undefined
  deriving DecidableEq, Repr

/-- `ArduinoDigitalOutput`, with the level of its pin. -/
structure DigitalOut where
  /-- `_cfg.active_on_low` -/
  activeLow : Bool
  /-- `_active`, `gpio.hpp:26` -/
  active : Logical
  /-- the level last given to `digitalWrite`; `none` before -/
  level : Option Bool
  deriving DecidableEq, Repr

namespace DigitalOut

/-- The constructor, `arduino.hpp:46`. -/
def create (activeLow : Bool) : DigitalOut := ⟨activeLow, .off, none⟩

/-- `set_state(LogicalState)`, `gpio.hpp:17-20`, with `set_state_impl`, `arduino.hpp:51-55`. -/
def setState (d : DigitalOut) (s : Logical) : DigitalOut :=
  { d with level := some (if s = .on then !d.activeLow else d.activeLow), active := s }

/-- `set_state(bool)`, `gpio.hpp:21`. -/
def setBool (d : DigitalOut) (b : Bool) : DigitalOut := d.setState (if b then .on else .off)

/-- `initialize(active)`, `gpio.hpp:13-16`. -/
def init (d : DigitalOut) (active : Bool) : DigitalOut := d.setBool active

/-- `flip`, `gpio.hpp:22`: `!state()` is a `bool`, true for `OFF` alone. -/
def flip (d : DigitalOut) : DigitalOut := d.setBool (decide (d.active = .off))

/-- A call of a member function. -/
inductive Call
  | init (active : Bool)
  | setState (s : Logical)
  | setBool (b : Bool)
  | flip

def call (d : DigitalOut) : Call → DigitalOut
  | .init b => d.init b
  | .setState s => d.setState s
  | .setBool b => d.setBool b
  | .flip => d.flip

end DigitalOut

/-! ## Analogue outputs -/

/-- Arithmetic with `std::round`. -/
class RoundArith (F : Type) extends Arith F where
  round : F → F

instance : RoundArith Rat where
  round q := F32.roundAway q

/-- The result of `std::round` on `float` is exact. -/
instance : RoundArith Fl where
  round
    | .num s m => .num s (⌊m + 1 / 2⌋ : Int)
    | x => x

variable {F : Type} [RoundArith F]

namespace Fade

/-- `value + invert * increment`, clamped, `gpio.cpp:21`. -/
def next (up : Bool) (value increment : F) : Res F :=
  fclamp (Arith.add value (Arith.mul (Arith.ofRat (if up then 1 else -1)) increment)) fzero (Arith.ofRat 1)

/-- The loop, `gpio.cpp:20-25`: the values given to `set_value`. -/
def loop (up : Bool) (increment : F) : Nat → F → F → Res (List F)
  | 0, _, _ => .error .fuel
  | n + 1, value, diff =>
    if Arith.lt fzero diff then do
      let v ← next up value increment
      let rest ← loop up increment n v (Arith.sub diff increment)
      return v :: rest
    else .ok []

/-- `diff`, `gpio.cpp:13-14`. -/
def distance (value setpoint increment : F) : F :=
  let decimals := Arith.div (Arith.ofRat 1) increment
  Arith.div (RoundArith.round (Arith.mul (RUnit.fabs (Arith.sub value setpoint)) decimals)) decimals

/-- `fade_to`, `gpio.cpp:9-26`: the values given to `set_value`; `fuel` bounds the number of turns of the loop. -/
def fadeTo (b : Build) (fuel : Nat) (value setpoint increment : F) : Res (List F) := do
  spnAssert b (Arith.le fzero setpoint && Arith.le setpoint (Arith.ofRat 1))
  let diff := distance value setpoint increment
  if Arith.lt diff increment then .ok [setpoint]
  else loop (!Arith.lt setpoint value) increment fuel value diff

end Fade

/-- `AnalogueOutput<Imp>`: `_value`, `gpio.hpp:65`, and the values that `Imp::set_value` has been called with, the last one first. -/
structure AnalogueOut (F : Type) where
  value : F
  driven : List F
  deriving DecidableEq

namespace AnalogueOut

/-- The constructor, `gpio.hpp:65`. -/
def create : AnalogueOut F := ⟨fzero, []⟩

/-- `set_value` of the implementation, `arduino.hpp:103-108`, up to `analogWrite`. It hides the base's: this is what `out.set_value(v)` calls for an
`out` of type `HAL::AnalogueOutput`. -/
def impSetValue (b : Build) (a : AnalogueOut F) (v : F) : Res (AnalogueOut F) := do
  spnAssert b (Arith.le fzero v && Arith.le v (Arith.ofRat 1))
  return { a with driven := v :: a.driven }

/-- `set_value` of the base, `gpio.hpp:49-52`. -/
def baseSetValue (b : Build) (a : AnalogueOut F) (v : F) : Res (AnalogueOut F) := impSetValue b { a with value := v } v

/-- `initialize` of the implementation, `arduino.hpp:97-100`. -/
def init (b : Build) (a : AnalogueOut F) : Res (AnalogueOut F) := impSetValue b a fzero

/-- The calls of `set_value` by `fade_to`, one after the other. -/
def drive (b : Build) (a : AnalogueOut F) : List F → Res (AnalogueOut F)
  | [] => .ok a
  | v :: vs => do (← baseSetValue b a v).drive b vs

/-- `fade_to` of the base, `gpio.hpp:58-62`. The computation of the values does not depend on the calls of `set_value`. -/
def fadeTo (b : Build) (fuel : Nat) (a : AnalogueOut F) (setpoint increment : F) : Res (AnalogueOut F) := do
  let vs ← Fade.fadeTo b fuel a.value setpoint increment
  let a ← a.drive b vs
  return { a with value := setpoint }

end AnalogueOut

/-- What `ArduinoAnalogueOutput::set_value` writes to the pin, `arduino.hpp:105-107`. `powf(2, r)` is exact, and infinite from 128 on; `int` has 32
bits, and conversions to it are undefined outside of its range. -/
def pinNumber (activeLow : Bool) (resolution : Nat) (v : Fl) : Res Int :=
  let v := if activeLow then Fl.sub (Fl.ofRat 1) v else v
  match Fl.mul v (Fl.ofRat (2 ^ resolution)) with
  | .num s m =>
    let n := if s then -⌊m⌋ else ⌊m⌋
    if -2 ^ 31 ≤ n ∧ n < 2 ^ 31 then .ok n else .error .ub
  | _ => .error .ub

/-- `ArduinoAnalogueInput::read`, `arduino.hpp:149-159`: the conversion of `n / 1024.0`, a `double` and exact, to `float`. -/
def analogueRead (n : Int) : Fl := Fl.ofRat (n / 1024)

end Spine
