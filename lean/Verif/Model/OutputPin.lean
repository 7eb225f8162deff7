import Verif.Model.Gpio
/-!
# Model of a digital output together with its pin

`/repo/src/spine/platform/gpio.hpp:8-27` and `/repo/src/spine/platform/implementations/arduino.hpp:37-60`, with `pinMode`, which `Gpio.lean` leaves out. A pin has an output
latch and is an input until `pinMode(pin, OUTPUT)`, which makes it drive the level of the latch. `digitalWrite` sets the latch, and the pin follows if it is an output. This is
how the Arduino cores for AVR, SAMD and STM32 behave; the latch is low after a reset. Pull-ups are not modelled: a pin which is an input drives nothing.
-/

namespace Spine

/-- `ArduinoDigitalOutput` and its pin. -/
structure OutputPin where
  /-- `_cfg.active_on_low`, `arduino.hpp:41` -/
  activeLow : Bool
  /-- `_active`, `gpio.hpp:26` -/
  active : Logical
  /-- the mode of the pin is `OUTPUT` -/
  output : Bool
  /-- the output latch -/
  latch : Bool
  /-- the levels that the pin has driven, the last one first -/
  driven : List Bool
  deriving DecidableEq, Repr

namespace OutputPin

/-- The constructor, `arduino.hpp:46`, on a pin with this latch that is an input. -/
def create (activeLow latch : Bool) : OutputPin := ⟨activeLow, .off, false, latch, []⟩

/-- `pinMode(pin, OUTPUT)`. -/
def modeOutput (p : OutputPin) : OutputPin := { p with output := true, driven := p.latch :: p.driven }

/-- `digitalWrite`. -/
def write (p : OutputPin) (level : Bool) : OutputPin :=
  { p with latch := level, driven := if p.output then level :: p.driven else p.driven }

/-- `set_state(LogicalState)`, `gpio.hpp:17-20`, with `set_state_impl`, `arduino.hpp:51-55`. -/
def setState (p : OutputPin) (s : Logical) : OutputPin :=
  { p.write (if s = .on then !p.activeLow else p.activeLow) with active := s }

/-- `set_state(bool)`, `gpio.hpp:21`. -/
def setBool (p : OutputPin) (b : Bool) : OutputPin := p.setState (if b then .on else .off)

/-- `initialize(active)`, `gpio.hpp:13-16`, with `initialize_impl`, `arduino.hpp:49`. -/
def init (p : OutputPin) (active : Bool) : OutputPin := p.modeOutput.setBool active

/-- `flip`, `gpio.hpp:22`. -/
def flip (p : OutputPin) : OutputPin := p.setBool (decide (p.active = .off))

def call (p : OutputPin) : DigitalOut.Call → OutputPin
  | .init b => p.init b
  | .setState s => p.setState s
  | .setBool b => p.setBool b
  | .flip => p.flip

end OutputPin

end Spine
