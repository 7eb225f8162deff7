import Verif.Model.Units
/-!
# Model of the text utilities

`/repo/src/spine/core/utils/string.cpp` and `/repo/src/spine/core/utils/time_repr.{hpp,cpp}`.  A `std::string_view` is its list of characters;
reading the character after the last one through an iterator is undefined.  For `to_float`, which reads on after the view, the
characters that follow in memory are an argument.
-/

namespace Spine
namespace Text

/-! ## string.cpp -/

/-- The loop of `lstrip`, `string.cpp:11-13`: the number of increments of `it`. -/
def stripCount (delimiters : List Char) : List Char → Res Nat
  | [] => .error .ub
  | c :: cs => if delimiters.contains c then do return (← stripCount delimiters cs) + 1 else .ok 0

/-- `lstrip`, `string.cpp:10-16`. -/
def lstrip (s delimiters : List Char) : Res (List Char) := do
  let len ← stripCount delimiters s
  return (s.drop len).take (s.length - len)

/-- `rstrip`, `string.cpp:19-25`. -/
def rstrip (s delimiters : List Char) : Res (List Char) := do
  let len ← stripCount delimiters s.reverse
  return (s.drop len).take (s.length - len)

/-- `strv.compare(pos, n, needle) == 0`: throws `std::out_of_range` if `pos > strv.size()`. -/
def compareAt (s : List Char) (pos n : Nat) (needle : List Char) : Res Bool :=
  if pos > s.length then .error .exception else .ok (decide ((s.drop pos).take n = needle))

/-- `starts_with`, `string.cpp:28-30`. -/
def startsWith (s needle : List Char) : Res Bool := compareAt s 0 needle.length needle

/-- `ends_with`, `string.cpp:33-35`. -/
def endsWith (s needle : List Char) : Res Bool := compareAt s (usub s.length needle.length) s.length needle

/-- The loop of `find_first_of`, `string.cpp:40-44`, from index `i` on; `none` is `npos`. -/
def findFrom (delimiters : List Char) (i : Nat) : List Char → Option Nat
  | [] => none
  | c :: cs => if delimiters.contains c then some i else findFrom delimiters (i + 1) cs

/-- `find_first_of`, `string.cpp:39-46`. -/
def findFirstOf (s delimiters : List Char) : Option Nat := findFrom delimiters 0 s

/-- `to_float`, `string.cpp:59-68`. `after` is what follows the view in memory; `strtof` gives the value and the length of the number at the beginning of a
NUL-terminated string, length 0 if there is none. Without a NUL the C library reads out of bounds. -/
def toFloat {F : Type} (zero : F) (strtof : List Char → F × Nat) (s after : List Char) : Res F :=
  let mem := s ++ after
  if '\x00' ∉ mem then .error .ub
  else
    let cstr := mem.takeWhile (· ≠ '\x00')
    let (v, len) := strtof cstr
    if len = 0 || decide (mem[len]? ≠ some '\x00') then .ok zero else .ok v

/-! ## time_repr -/

/-- `"0123456789"`, `time_repr.cpp:35`. -/
def isDigit (c : Char) : Bool := decide ('0' ≤ c) && decide (c ≤ '9')

/-- `std::stoi` of a string of digits: throws `std::invalid_argument` without digits and `std::out_of_range` beyond `INT_MAX`. -/
def stoi (ds : List Char) : Res Int :=
  if ds = [] then .error .exception
  else
    let v : Nat := ds.foldl (fun acc c => acc * 10 + (c.toNat - '0'.toNat)) 0
    if v < 2 ^ 31 then .ok v else .error .exception

/-- The units of `parse_time`, `time_repr.cpp:42-47`. -/
def unitOf (unit : List Char) : Option Mag :=
  if unit = ['u', 's'] then some .micro
  else if unit = ['m', 's'] then some .milli
  else if unit = ['s'] then some .base
  else if unit = ['m'] then some .minute
  else if unit = ['h'] then some .hour
  else if unit = ['d'] then some .day
  else none

/-- `parse_time`, `time_repr.cpp:30-50`; the variant is the unit and the raw value. -/
def parseTime (input : List Char) : Res (Option (Mag × Int)) :=
  if input = [] then .ok none
  else
    let digits := input.takeWhile isDigit
    let unit := input.dropWhile isDigit
    if unit = [] then .ok none
    else do
      let value ← stoi digits
      return (unitOf unit).map fun m => (m, value)

/-- `k_time_xx(t)`: the copy constructor for the same type (`unit.hpp:23`), otherwise a conversion (`unit.hpp:36-37`). -/
def toUnit (src dst : Mag) (v : Int) : Res Int := if src = dst then .ok v else KTime.convert src dst v

/-- `raw` and `unit` of `repr`, `time_repr.hpp:39-53`; the two chains of conditions are the same. -/
def reprParts (m : Mag) (v : Int) : Res (Int × List Char) := do
  let us ← toUnit m .micro v
  if us < 1000 then return (us, ['u', 's'])
  let ms ← toUnit m .milli v
  if ms < 1000 then return (ms, ['m', 's'])
  let s ← toUnit m .base v
  if s < 900 then return (s, ['s'])
  let mins ← toUnit m .minute v
  if mins < 1440 then return (mins, ['m'])
  let h ← toUnit m .hour v
  if h < 24 then return (h, ['h'])
  let d ← toUnit m .day v
  if d > 0 then return (d, ['d'])
  return (0, "unknown".toList)

/-- A decimal digit. -/
def digitChar (n : Nat) : Char := Char.ofNat ('0'.toNat + n)

/-- `"%" PRId64` for a number that is not negative. -/
def decimalNat (n : Nat) : List Char := if n < 10 then [digitChar n] else decimalNat (n / 10) ++ [digitChar (n % 10)]

/-- `"%" PRId64`. -/
def decimal (v : Int) : List Char := if v < 0 then '-' :: decimalNat v.natAbs else decimalNat v.natAbs

/-- `repr`, `time_repr.hpp:34-67`: the text has to fit the buffer of 64 characters. -/
def repr (m : Mag) (v : Int) : Res (List Char) := do
  let (raw, unit) ← reprParts m v
  let text := decimal raw ++ unit
  return if text.length ≥ 64 then "Error".toList else text

end Text
end Spine
