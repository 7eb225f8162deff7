import Verif.Core.Outcome
/-!
# Model of interrupts on Arduino

`ArduinoInterrupt`, `/repo/src/spine/platform/implementations/arduino.hpp:165-220`. The core's table of interrupt handlers is part of the state; pins and interrupt
lines are numbers, callbacks are named by `H`. `pinMode` is not modelled.
-/

namespace Spine

/-- `TriggerType`, `core/types.hpp:6`. -/
inductive Trigger
  | rising | falling | both | undefined
  deriving DecidableEq, Repr

/-- A board: the core for the ATmega8, 168 and 328P (`direct`), for which the code passes pin numbers, or another one. `line` is `digitalPinToInterrupt`, `none`
for `NOT_AN_INTERRUPT`; `count` is the number of interrupt lines. -/
structure Board where
  direct : Bool
  count : Nat
  line : Nat → Option Nat

/-- What the core calls on an interrupt: the callback and the mode bits. -/
abbrev Lines (H : Type) := Nat → Option (Option H × Nat)

/-- `ArduinoInterrupt`, `arduino.hpp:215-219`. -/
structure Interrupt (H : Type) where
  pin : Nat
  mode : Trigger
  callback : Option H

namespace Interrupt

variable {H : Type}

/-- `mode_bits`, `arduino.hpp:195-200`. -/
def modeBits : Trigger → Nat
  | .both => 1
  | .falling => 2
  | .rising => 3
  | .undefined => 0

/-- `::attachInterrupt` of the Arduino core (not in /repo): it ignores numbers that are not those of a line. -/
def attachLine (board : Board) (ls : Lines H) (n : Nat) (entry : Option H × Nat) : Lines H :=
  fun k => if k = n ∧ n < board.count then some entry else ls k

/-- `::detachInterrupt` of the Arduino core (not in /repo). -/
def detachLine (ls : Lines H) (n : Nat) : Lines H := fun k => if k = n then none else ls k

/-- `attach_interrupt`, `arduino.hpp:187-211`. `NOT_AN_INTERRUPT` is no line, so in a release build the core ignores the call. -/
def attach (b : Build) (board : Board) (ls : Lines H) (i : Interrupt H) (callback : Option H) (trigger : Trigger) : Res (Interrupt H × Lines H) := do
  let actual := match callback with
    | some c => some c
    | none => i.callback
  let mode := if trigger ≠ .undefined then trigger else i.mode
  let i' := { i with mode := mode, callback := actual }
  if board.direct then return (i', attachLine board ls i.pin (actual, modeBits mode))
  else
    spnAssert b (board.line i.pin).isSome
    match board.line i.pin with
    | some n => return (i', attachLine board ls n (actual, modeBits mode))
    | none => return (i', ls)

/-- `detach_interrupt`, `arduino.hpp:213`. -/
def detach (ls : Lines H) (i : Interrupt H) : Lines H := detachLine ls i.pin

end Interrupt
end Spine
