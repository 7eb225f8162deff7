import Verif.Core.Outcome
/-!
# Model of exceptions

`/repo/src/spine/core/exception.cpp`, `exception.hpp` and `debugging.hpp` in the same directory. The machine's handler is an object of the user; what it does when it
is called is one of three things. Logging is not looked at here (`Verif/Model/Logging.lean`).
-/

namespace Spine
namespace Machine

/-- What `handle_exception` of a handler does. -/
inductive Reaction
  | returns
  /-- throws a C++ exception, as the handlers of the unit tests do -/
  | throws
  /-- stops or restarts the machine -/
  | never
  deriving DecidableEq, Repr

/-- How a call of `throw_exception` ends. -/
inductive Ending
  | returned
  | thrown
  | stopped
  deriving DecidableEq, Repr

/-- The platforms, `platform/hal.hpp`. -/
inductive Platform
  | arduino | native | zephyr
  deriving DecidableEq, Repr

/-- Whether `HAL::halt` comes back: `arduino.hpp:306-312` loops for ever, `zephyr.hpp:31-36` panics, `mock.hpp:199` is empty. -/
def Platform.haltReturns : Platform → Bool
  | .arduino => false
  | .native => true
  | .zephyr => false

/-- `Exception::throw_error`, `exception.cpp:26-34`, reached by `throw_exception`, `exception.hpp:55`. -/
def throwError (p : Platform) (handler : Option Reaction) : Ending :=
  let rest := if p.haltReturns then Ending.returned else .stopped
  match handler with
  | none => rest
  | some .returns => rest
  | some .throws => .thrown
  | some .never => .stopped

/-- `set_machine_exception_handler`, `exception.cpp:18-22`: the new state, and the handler that is handed back. Handlers are named by `H`; `none` is the
null pointer. -/
def setHandler {H : Type} (current new : Option H) : Option H × Option H := (new, current)

/-- `spn_assert`, `debugging.hpp:22-28`, `:41-43`: how a statement ends that asserts a condition. `returned`: execution goes on after it. -/
def assertion (b : Build) (p : Platform) (handler : Option Reaction) (condition : Bool) : Ending :=
  match b with
  | .debug => if condition then .returned else throwError p handler
  | .release => .returned

/-- `Unit::operator/` by a number, `unit.hpp:90-93`, with the throw spelled out: the check returns into the division, so the value is divided by zero if
the throw returns. `none` in the result: an ending other than returning. -/
def divideChecked (p : Platform) (handler : Option Reaction) (v scalar : Int) : Res (Option Int) :=
  if scalar = 0 ∧ throwError p handler ≠ .returned then .ok none
  else if scalar = 0 then .error .ub
  else .ok (some (v.tdiv scalar))

end Machine
end Spine
