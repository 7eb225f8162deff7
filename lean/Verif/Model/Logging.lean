import Verif.Model.Text
/-!
# Model of logging

`/repo/src/spine/core/logging.cpp`, `/repo/src/spine/core/logging.hpp`. Texts are lists of characters without a NUL. The formatted message is an argument (`body`):
what `vsnprintf` makes of the format is not modelled; that it reports an error is, in `printFailed`.
-/

namespace Spine
namespace Logging

/-- `LogLevel`, `logging.hpp:11`. -/
inductive Level
  | off
  | err
  | warn
  | info
  | debug
deriving DecidableEq

/-- The value of the enumerator. -/
def Level.num : Level → Nat
  | .off => 0
  | .err => 1
  | .warn => 2
  | .info => 3
  | .debug => 4

/-- `to_string`, `logging.cpp:10-19`. -/
def levelName : Level → List Char
  | .off => "OFF".toList
  | .err => "ERR".toList
  | .warn => "WARN".toList
  | .info => "INFO".toList
  | .debug => "DBG".toList

/-- `snprintf(buf + off, size, ...)` of a text, with the number it returns. A pointer beyond the end and a character written outside of the buffer are undefined. -/
def snprintf (buf : List Char) (off size : Nat) (text : List Char) : Res (List Char × Nat) :=
  if off > buf.length then .error .ub
  else if size = 0 then .ok (buf, text.length)
  else
    let w := text.take (size - 1) ++ ['\x00']
    if off + w.length > buf.length then .error .ub
    else .ok (buf.take off ++ w ++ buf.drop (off + w.length), text.length)

/-- `"%08" PRIu32` of the time in ms, `logging.cpp:32-36`. -/
def currentTime (ms : Int) : List Char :=
  let d := Text.decimalNat (ms % 2 ^ 32).toNat
  List.replicate (8 - d.length) '0' ++ d

/-- `"[%s] [%s] "`, `logging.cpp:44`. -/
def header (ms : Int) (level : Level) : List Char := '[' :: currentTime ms ++ "] [".toList ++ levelName level ++ "] ".toList

/-- `" (%s:%d %s)"`, `logging.cpp:53`. -/
def location (filename : List Char) (line : Int) (function : List Char) : List Char :=
  " (".toList ++ filename ++ ':' :: Text.decimal line ++ ' ' :: function ++ [')']

/-- `logging.cpp:43-45`. `overload`: `SPN_LOG_OVERLOAD` is defined. The buffer at first holds whatever is on the stack. -/
def fillHeader (overload : Bool) (stack : List Char) (ms : Int) (level : Level) : Res (List Char × Nat) :=
  if overload then .ok (stack, 0) else snprintf stack 0 stack.length (header ms level)

/-- `logging.cpp:47-55`. -/
def fillRest (buf : List Char) (used : Nat) (level : Level) (filename : List Char) (line : Int) (function body : List Char) : Res (List Char) := do
  let r ← snprintf buf used (usub buf.length used) body
  if level = .debug then
    let r' ← snprintf r.1 (used + r.2) (usub buf.length (used + r.2)) (location filename line function)
    return r'.1
  else return r.1

/-- `print`, `logging.cpp:38-65`: what is left in the buffer. -/
def fill (overload : Bool) (stack : List Char) (ms : Int) (level : Level) (filename : List Char) (line : Int) (function body : List Char) : Res (List Char) := do
  let r ← fillHeader overload stack ms level
  fillRest r.1 r.2 level filename line function body

/-- The C string at the beginning of a buffer. -/
def cstring (buf : List Char) : Res (List Char) := if '\x00' ∈ buf then .ok (buf.takeWhile (· ≠ '\x00')) else .error .ub

/-- `print`: the text that is handed on. -/
def print (overload : Bool) (stack : List Char) (ms : Int) (level : Level) (filename : List Char) (line : Int) (function body : List Char) : Res (List Char) := do
  cstring (← fill overload stack ms level filename line function body)

/-- `print` if `vsnprintf` reports an error: it returns a negative number, here -1, which `logging.cpp:49` adds to a `size_t`; what follows the header in the buffer, `rest`, is
unspecified. -/
def printFailed (overload : Bool) (stack : List Char) (ms : Int) (level : Level) (filename : List Char) (line : Int) (function rest : List Char) : Res (List Char) := do
  let r ← fillHeader overload stack ms level
  let buf := r.1.take r.2 ++ rest
  if level = .debug then
    let used := usub r.2 1
    let r' ← snprintf buf used (usub buf.length used) (location filename line function)
    cstring r'.1
  else cstring buf

/-- `is_loggable`, `logging.cpp:75`. -/
def isLoggable (current level : Level) : Bool := decide (level.num ≤ current.num)

/-- `SPN_LOG_IMPL`, `logging.hpp:27-35`: what is printed, if anything. -/
def log (overload : Bool) (current : Level) (stack : List Char) (ms : Int) (level : Level) (filename : List Char) (line : Int) (function body : List Char) :
    Res (Option (List Char)) :=
  if isLoggable current level then do return some (← print overload stack ms level filename line function body) else .ok none

end Logging
end Spine
