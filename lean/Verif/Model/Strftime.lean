import Verif.Model.DateTimeObjects
import Verif.Model.Text
/-!
# Model of `DateTime::strf_DateTime`

`/repo/src/spine/structure/time/datetime.cpp:169-172` and `datetime.hpp:37`. It calls `strftime` of the C library (C17 7.27.3.5), which is modelled in the C locale for the conversions below.
Other conversions are not modelled (`ub`). So are fields that were never set, whose use is undefined, and fields outside their normal range, for which the characters written are unspecified.
Characters are ASCII.
-/

namespace Spine
namespace DateTime

/-- `%a` in the C locale, from Sunday. -/
def dayAbbreviations : List (List Char) :=
  [['S', 'u', 'n'], ['M', 'o', 'n'], ['T', 'u', 'e'], ['W', 'e', 'd'], ['T', 'h', 'u'], ['F', 'r', 'i'], ['S', 'a', 't']]

/-- `%b` in the C locale. -/
def monthAbbreviations : List (List Char) :=
  [['J', 'a', 'n'], ['F', 'e', 'b'], ['M', 'a', 'r'], ['A', 'p', 'r'], ['M', 'a', 'y'], ['J', 'u', 'n'], ['J', 'u', 'l'], ['A', 'u', 'g'], ['S', 'e', 'p'], ['O', 'c', 't'], ['N', 'o', 'v'],
    ['D', 'e', 'c']]

/-- A number below 100 with two digits. -/
def padded (n : Nat) : List Char := [Text.digitChar (n / 10), Text.digitChar (n % 10)]

/-- A field, which must be in its normal range. -/
def field (v : Option Int) (lo hi : Int) : Res Nat := do
  let v ← use v
  if lo ≤ v ∧ v ≤ hi then return v.toNat else throw .ub

/-- One conversion of `strftime`. -/
def conversion (tm : Tm) : Char → Res (List Char)
  | 'a' => do rd dayAbbreviations (← field tm.wday 0 6)
  | 'h' => do rd monthAbbreviations (← field tm.mon 0 11)
  | 'b' => do rd monthAbbreviations (← field tm.mon 0 11)
  | 'd' => do return padded (← field tm.mday 1 31)
  | 'H' => do return padded (← field tm.hour 0 23)
  | 'M' => do return padded (← field tm.min 0 59)
  | 'S' => do return padded (← field tm.sec 0 60)
  | 'T' => do return padded (← field tm.hour 0 23) ++ [':'] ++ padded (← field tm.min 0 59) ++ [':'] ++ padded (← field tm.sec 0 60)
  | 'Y' => do return Text.decimal ((← use tm.year) + 1900)
  | '%' => .ok ['%']
  | _ => .error .ub

/-- The text `strftime` makes of a format. -/
def formatted (tm : Tm) : List Char → Res (List Char)
  | '%' :: c :: f => do return (← conversion tm c) ++ (← formatted tm f)
  | ['%'] => .error .ub
  | c :: f => do return c :: (← formatted tm f)
  | [] => .ok []

/-- `strftime(buffer, size, format, &tm)`: the text and a NUL character are written if they fit in `size` characters, and the length is returned; otherwise 0 is returned and the contents of
the buffer are indeterminate (`none`). `size` must not be larger than the buffer. -/
def strftime (buffer : List Char) (size : Nat) (format : List Char) (tm : Tm) : Res (Nat × Option (List Char)) := do
  if buffer.length < size then throw .ub
  let text ← formatted tm format
  if text.length < size then return (text.length, some (text ++ '\x00' :: buffer.drop (text.length + 1))) else return (0, none)

/-- The default of `formatSpec`, `datetime.hpp:37`: `"%a %h %d %T %Y"`. -/
def defaultFormat : List Char := ['%', 'a', ' ', '%', 'h', ' ', '%', 'd', ' ', '%', 'T', ' ', '%', 'Y']

/-- `strf_DateTime(buffer, buffersize, formatSpec)`, `datetime.cpp:169-172`. -/
def Obj.strf (o : Obj) (buffer : List Char) (size : Nat) (format : List Char := defaultFormat) : Res (Nat × Option (List Char)) := strftime buffer size format o.tm

end DateTime
end Spine
