import Verif.Core.Outcome
/-!
# Model of `DateTime`

`/repo/src/spine/structure/time/datetime.{hpp,cpp}`: leap years, day of the year, the constructors and what `sscanf` does with their
arguments.  `mktime` and `gmtime_r` are the C library's and are not modelled (see `DateTimeObjects`, and `Strftime` for `strftime`); `mktime` reads seven fields of the `tm` it is given
(C17 7.27.2.3), which is modelled, since reading a field that was never set is undefined.  Characters are ASCII.
-/

namespace Spine

namespace DateTime

/-- `daysInMonth`, `datetime.cpp:38`. -/
def daysInMonth : List Int := [31, 28, 31, 30, 31, 30, 31, 31, 30, 31, 30, 31]

/-- `isleapYear`, `datetime.cpp:47-54`; `%` of C++ is `Int.tmod`. -/
def isLeapYear (year : Int) : Bool :=
  if Int.tmod year 4 ≠ 0 then false else decide (Int.tmod year 100 ≠ 0) || decide (Int.tmod year 400 = 0)

/-- The loop of `calcYearDay`, `datetime.cpp:66-67`, with `n` iterations to go. Beyond the table: undefined. -/
def addMonths : Nat → Nat → Int → Res Int
  | 0, _, days => .ok days
  | n + 1, i, days => do addMonths n (i + 1) (days + (← rd daysInMonth (i - 1)))

/-- `calcYearDay`, `datetime.cpp:64-70`. -/
def calcYearDay (year month day : Int) : Res Int := do
  let days ← addMonths (month - 1).toNat 1 (day - 1)
  return if month > 2 && isLeapYear year then days + 1 else days

/-- `bcd2bin`, `datetime.cpp:77`, on `uint8_t`. -/
def bcd2bin (val : Nat) : Nat := (val + 256 * 6 - 6 * (val / 16)) % 256

/-! ## `sscanf` -/

/-- `isspace`. -/
def isSpace (c : Char) : Bool := c = ' ' || (9 ≤ c.toNat && c.toNat ≤ 13)

/-- The value of a digit. -/
def digit (c : Char) : Option Nat :=
  if '0' ≤ c ∧ c ≤ '9' then some (c.toNat - '0'.toNat)
  else if 'a' ≤ c ∧ c ≤ 'f' then some (c.toNat - 'a'.toNat + 10)
  else if 'A' ≤ c ∧ c ≤ 'F' then some (c.toNat - 'A'.toNat + 10)
  else none

/-- Up to `width` digits in base `base`: their value and the rest of the text. -/
def scanDigits (base : Nat) : Nat → Nat → List Char → Nat × List Char
  | _, acc, [] => (acc, [])
  | 0, acc, s => (acc, s)
  | width + 1, acc, c :: s =>
    match digit c with
    | none => (acc, c :: s)
    | some d => if d < base then scanDigits base width (acc * base + d) s else (acc, c :: s)

/-- An unsigned number in base `base`: at least one digit. -/
def scanNat (base width : Nat) (s : List Char) : Option (Nat × List Char) :=
  let (v, rest) := scanDigits base width 0 s
  if rest.length < s.length then some (v, rest) else none

/-- `%<width>d`: white space, sign, digits; `none` if there is no number. -/
def scanD (width : Nat) (s : List Char) : Option (Int × List Char) :=
  match s.dropWhile isSpace with
  | '-' :: s => (scanNat 10 (width - 1) s).map fun (v, r) => (-(v : Int), r)
  | '+' :: s => (scanNat 10 (width - 1) s).map fun (v, r) => ((v : Int), r)
  | s => (scanNat 10 width s).map fun (v, r) => ((v : Int), r)

/-- The number of `%i` without its sign: `0x` means base 16, another leading 0 means base 8. -/
def scanPrefixed (s : List Char) : Option (Nat × List Char) :=
  match s with
  | '0' :: 'x' :: r => scanNat 16 r.length r
  | '0' :: 'X' :: r => scanNat 16 r.length r
  | '0' :: _ => scanNat 8 s.length s
  | _ => scanNat 10 s.length s

/-- `%i`. -/
def scanI (s : List Char) : Option (Int × List Char) :=
  match s.dropWhile isSpace with
  | '-' :: s => (scanPrefixed s).map fun (v, r) => (-(v : Int), r)
  | '+' :: s => (scanPrefixed s).map fun (v, r) => ((v : Int), r)
  | s => (scanPrefixed s).map fun (v, r) => ((v : Int), r)

/-- `%4s`: white space, then one to four other characters. -/
def scanWord (s : List Char) : Option (List Char × List Char) :=
  match s.dropWhile isSpace with
  | [] => none
  | s =>
    let w := (s.take 4).takeWhile (fun c => !isSpace c)
    some (w, s.drop w.length)

/-- `sscanf(date, "%4s %2d %4d", month_buff, &day, &year)`, `datetime.cpp:130`; what is assigned. -/
def scanDate (s : List Char) : Option (List Char) × Option Int × Option Int :=
  match scanWord s with
  | none => (none, none, none)
  | some (w, s) =>
    match scanD 2 s with
    | none => (some w, none, none)
    | some (d, s) => (some w, some d, (scanD 4 s).map Prod.fst)

/-- `sscanf(time, "%i:%i:%i", &hour, &min, &sec)`, `datetime.cpp:136`. -/
def scanTime (s : List Char) : Option Int × Option Int × Option Int :=
  match scanI s with
  | none => (none, none, none)
  | some (h, ':' :: s) =>
    match scanI s with
    | none => (some h, none, none)
    | some (m, ':' :: s) => (some h, some m, (scanI s).map Prod.fst)
    | some (m, _) => (some h, some m, none)
  | some (h, _) => (some h, none, none)

/-- `strstr`: the index of the first occurrence. -/
def strstr (hay needle : List Char) (i : Nat := 0) : Option Nat :=
  match hay with
  | [] => if needle = [] then some i else none
  | c :: cs => if needle.isPrefixOf (c :: cs) then some i else strstr cs needle (i + 1)

/-- `month_names`, `datetime.cpp:127`. -/
def monthNames : List Char := "JanFebMarAprMayJunJulAugSepOctNovDec".toList

/-! ## The objects -/

/-- `struct tm`; a field is `none` until it has been set (`tm _tm;` without initialiser, `datetime.hpp:54`). -/
structure Tm where
  sec : Option Int := none
  min : Option Int := none
  hour : Option Int := none
  mday : Option Int := none
  mon : Option Int := none
  year : Option Int := none
  wday : Option Int := none
  yday : Option Int := none
  isdst : Option Int := none
  deriving DecidableEq, Repr

/-- Use of a variable. -/
def use (v : Option Int) : Res Int :=
  match v with
  | some v => .ok v
  | none => .error .ub

/-- A value of type `int`; a number that does not fit makes `sscanf` undefined (C17 7.21.6.2 p10). -/
def inInt (v : Int) : Res Int := if -2 ^ 31 ≤ v ∧ v < 2 ^ 31 then .ok v else .error .ub

/-- `(strstr(month_names, month_buff) - month_names) / 3 + 1`, `datetime.cpp:131`; undefined for the null pointer. -/
def monthOf (buff : List Char) : Res Int :=
  match strstr monthNames buff with
  | some i => .ok (i / 3 + 1)
  | none => .error .ub

/-- The fields set by `DateTime(const char* date, const char* time)`, `datetime.cpp:126-140`; `buff` is what the static `month_buff` holds. -/
def fieldsOf (buff date time : List Char) : Res Tm := do
  let (word, day, year) := scanDate date
  let month ← monthOf (word.getD buff)
  let year ← use year
  let day ← use day
  let (h, m, s) := scanTime time
  let hour ← inInt (← use h)
  let min ← inInt (← use m)
  let sec ← inInt (← use s)
  return { year := some (year - 1900), mon := some (month - 1), mday := some day, hour := some hour, min := some min, sec := some sec,
           yday := some (← calcYearDay year month day) }

/-- `set_timestamps`, `datetime.cpp:148-156`: the Unix timestamp. `mktime` is given by what it makes of the fields it reads. -/
def setTimestamps (mktime : List Int → Int) (tm : Tm) : Res Int := do
  let l ← [tm.sec, tm.min, tm.hour, tm.mday, tm.mon, tm.year, tm.isdst].mapM use
  return mktime l

/-- `DateTime(const char* date, const char* time)`: the Unix timestamp. -/
def ofStrings (mktime : List Int → Int) (buff date time : List Char) : Res Int := do setTimestamps mktime (← fieldsOf buff date time)

/-- `DateTime(int year, ...)`, `datetime.cpp:105-117`: the fields handed to `mktime`. -/
def fieldsOfInts (year month day hour min sec wday yday dst : Int) : Tm :=
  { sec := some sec, min := some min, hour := some hour, mday := some day, mon := some (month - 1), year := some (year - 1900),
    wday := some (wday - 1), yday := some yday, isdst := some dst }

/-- `UNIX_OFFSET`, `datetime.cpp:28`. -/
def unixOffset : Int := 946684800

/-- `DateTime(time_t)`, `datetime.cpp:87-91`, where `long` has 32 or 64 bits (`wide`) and `time_t` has 64: the two timestamps. With a 64-bit
`long`, the difference is unsigned; otherwise it is a signed difference of 64 bits, which may overflow. -/
def ofTimestamp (b : Build) (wide : Bool) (t : Int) : Res (Int × Int) := do
  if wide then spnAssert b (decide ((t - unixOffset) % 2 ^ 64 ≤ 2 ^ 63 - 1))
  else if t - unixOffset < -2 ^ 63 then throw .ub
  else spnAssert b (decide (t - unixOffset ≤ 2 ^ 31 - 1))
  return (t, Int.bmod (t - unixOffset) (2 ^ 64))

/-- `DateTime(time_t)`, `datetime.cpp:87-91`, where `long` and `time_t` both have 32 bits: the difference is unsigned. -/
def ofTimestamp32 (b : Build) (t : Int) : Res (Int × Int) := do
  spnAssert b (decide ((t - unixOffset) % 2 ^ 32 ≤ 2 ^ 31 - 1))
  return (t, Int.bmod (t - unixOffset) (2 ^ 32))

end DateTime
end Spine
