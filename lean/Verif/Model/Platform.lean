import Verif.Model.Timers
import Verif.Model.Logging
import Verif.Model.Gpio
/-!
# Model of platforms: clocks, delays, the log filter and the serial port

`/repo/src/spine/platform/platform.hpp` and, in the directory `implementations`, `mock.hpp`, `arduino.hpp`, `zephyr.hpp` and `zephyr.cpp`. Not modelled: what the systems
below do with the calls, `free_memory`, `halt` and interrupts.
-/

namespace Spine

/-! ## The mock platform's clock -/

/-- `MockState`, `mock.hpp:189-192`: `k_time_ms millis` and `k_time_us micros`. -/
structure MockClock where
  ms : Int
  us : Int
  deriving DecidableEq, Repr

namespace MockClock

/-- `MockStateInstance`, `mock.cpp:7-10`. -/
def start : MockClock := ⟨0, 0⟩

/-- `millis`, `mock.hpp:220`. `micros / 1000` is a `k_time_us`. -/
def millis (c : MockClock) : Res Int := do KTime.add .milli .micro c.ms (← KTime.divide c.us 1000)

/-- `micros`, `mock.hpp:221`. `millis * 1000` is a `k_time_ms`. -/
def micros (c : MockClock) : Res Int := do KTime.add .micro .milli c.us (← KTime.scale c.ms 1000)

/-- `delay_us`, `mock.hpp:222`. -/
def delayUs (c : MockClock) (d : Int) : Res MockClock := do return { c with us := ← KTime.add .micro .micro c.us d }

/-- `delay_ms`, `mock.hpp:223`. -/
def delayMs (c : MockClock) (d : Int) : Res MockClock := do return { c with ms := ← KTime.add .milli .milli c.ms d }

end MockClock

/-! ## Other clocks and delays -/

/-- `Arduino::millis`, `arduino.hpp:333`, at a time in ms since the start: `::millis()` is a 32-bit `unsigned long`. -/
def arduinoMillis (time : Nat) : Int := time % 2 ^ 32

/-- `Arduino::micros`, `arduino.hpp:334`. -/
def arduinoMicros (time : Nat) : Int := time % 2 ^ 32

/-- `Zephyr::millis`, `zephyr.hpp:38`, at a time in ticks of a clock of `hz` ticks per second: `k_uptime_get()` is a 64-bit number, rounded down. -/
def zephyrMillis (hz ticks : Nat) : Int := ticks * 1000 / hz

/-- `Zephyr::micros`, `zephyr.hpp:39`: `k_ticks_to_us_near32` rounds to the nearest number and keeps 32 bits. -/
def zephyrMicros (hz ticks : Nat) : Int := (ticks * 1000000 + hz / 2) / hz % 2 ^ 32

/-- Conversion to `int32_t`. -/
def toInt32 (n : Int) : Int := (n + 2 ^ 31) % 2 ^ 32 - 2 ^ 31

/-- What the kernel is asked for: a sleep in ms (negative ones return at once) or a busy wait in µs. -/
inductive Pause
  | sleep (ms : Int)
  | wait (us : Nat)
  deriving DecidableEq, Repr

/-- The least time in µs that passes. -/
def Pause.least : Pause → Int
  | .sleep ms => max 0 ms * 1000
  | .wait us => us

/-- `Zephyr::delay_us`, `zephyr.hpp:40-46`. `k_msleep` takes an `int32_t`, `k_busy_wait` a `uint32_t`. -/
def zephyrDelayUs (us : Int) : Pause := if us ≥ 1000 then .sleep (toInt32 (us.tdiv 1000)) else .wait (us % 2 ^ 32).toNat

/-- `Zephyr::delay_ms`, `zephyr.hpp:47`. -/
def zephyrDelayMs (ms : Int) : Pause := .sleep (toInt32 ms)

/-! ## The log filter of Zephyr -/

/-- `zephyr_set_log_level`, `zephyr.cpp:29-40`: the levels that the filter is set to, in order. The case `OFF` lacks a `break`. -/
def zephyrFilters : Logging.Level → List Logging.Level
  | .off => [.off, .err]
  | .err => [.err]
  | .warn => [.warn]
  | .info => [.info]
  | .debug => [.debug]

/-! ## The serial port of Arduino -/

/-- `::HardwareSerial::read()`: the next byte, or -1. The state is what has been received. -/
def serialRead : List Nat → Int × List Nat
  | [] => (-1, [])
  | x :: rest => (x, rest)

/-- `ArduinoUART::read(uint8_t&)`, `arduino.hpp:255-258`: the result, the value read, and what is left. -/
def arduinoRead (received : List Nat) : Bool × Nat × List Nat :=
  let r := serialRead received
  (true, (r.1 % 256).toNat, r.2)

/-! ## `Platform::printf` -/

/-- `printf`, `platform.hpp:74-84`: what is printed of a formatted text. -/
def platformPrintf (stack : List Char) (text : List Char) : Res (List Char) := do
  let r ← Logging.snprintf stack 0 stack.length text
  Logging.cstring r.1

end Spine
