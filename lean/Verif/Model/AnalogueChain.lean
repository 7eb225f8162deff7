import Verif.Model.Gpio
import Verif.Model.Filter
/-!
# From an analogue input to an analogue output

`ArduinoAnalogueInput::read` and `ArduinoAnalogueOutput::set_value`, `/repo/src/spine/platform/implementations/arduino.hpp:85-163`, and the ready-made filters of
`/repo/src/spine/filter/implementations/mapped_range.hpp:29-43`.
-/

namespace Spine

/-- `output.set_value(input.read())`, `arduino.hpp:103-108` and `arduino.hpp:149-159`: the number given to `analogWrite` for the number `n` that `analogRead` returns. -/
def dimmer (b : Build) (activeLow : Bool) (resolution : Nat) (n : Int) : Res Int := do
  let v := analogueRead n
  spnAssert b (Arith.le fzero v && Arith.le v (Arith.ofRat 1))
  pinNumber activeLow resolution v

/-- `MappedRange::Percentage`, `mapped_range.hpp:30-35`. -/
def MapCfg.percentage {F : Type} [Arith F] (lo hi : F) : MapCfg F := ⟨lo, hi, fzero, Arith.ofRat 100, false⟩

/-- `MappedRange::Permillage`, `mapped_range.hpp:38-43`. -/
def MapCfg.permillage {F : Type} [Arith F] (lo hi : F) : MapCfg F := ⟨lo, hi, fzero, Arith.ofRat 1000, false⟩

end Spine
