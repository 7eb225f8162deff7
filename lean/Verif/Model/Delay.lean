import Verif.Model.Platform
/-!
# Model of the delays of Arduino and of `HAL::delay`

`/repo/src/spine/platform/implementations/arduino.hpp:335-336` and `/repo/src/spine/platform/platform.hpp:95-108`. The functions of the Arduino core, `::delay(unsigned long)` and
`::delayMicroseconds(unsigned int)`, are not in /repo: they are taken to pass the time that is their argument. `unsigned long` has 32 bits; `unsigned int` has 16 bits on AVR and 32 bits elsewhere.
-/

namespace Spine

/-- `Arduino::delay_us`, `arduino.hpp:335`, where `unsigned int` has `bits` bits: the µs that pass. -/
def arduinoDelayUs (bits : Nat) (us : Int) : Nat := (us % 2 ^ bits).toNat

/-- `Arduino::delay_ms`, `arduino.hpp:336`: the ms that pass. -/
def arduinoDelayMs (ms : Int) : Nat := (ms % 2 ^ 32).toNat

/-- `HAL::delay(k_time_ms)`, `platform.hpp:96`, given a time in another unit, which is converted: the ms that the platform is asked for. -/
def delayIn (unit : Mag) (t : Int) : Res Int := if unit = .milli then .ok t else KTime.convert unit .milli t

end Spine
