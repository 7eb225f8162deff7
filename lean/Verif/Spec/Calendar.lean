import Mathlib.Data.Int.Init
import Mathlib.Logic.Function.Iterate
/-!
# The Gregorian calendar

By going from one day to the next.
-/

namespace Spine

/-- Every fourth year is a leap year, except for full centuries that are not multiples of 400. -/
def Leap (year : Int) : Prop := 4 ∣ year ∧ (100 ∣ year → 400 ∣ year)

instance (year : Int) : Decidable (Leap year) := inferInstanceAs (Decidable (_ ∧ _))

/-- Thirty days hath September... -/
def monthLength (year : Int) (month : Nat) : Nat :=
  if month = 2 then (if Leap year then 29 else 28)
  else if month = 4 ∨ month = 6 ∨ month = 9 ∨ month = 11 then 30
  else 31

/-- A date. -/
structure Date where
  year : Int
  month : Nat
  day : Nat
  deriving DecidableEq, Repr

namespace Date

/-- A day of the calendar. -/
def Valid (d : Date) : Prop := 1 ≤ d.month ∧ d.month ≤ 12 ∧ 1 ≤ d.day ∧ d.day ≤ monthLength d.year d.month

instance (d : Date) : Decidable d.Valid := inferInstanceAs (Decidable (_ ∧ _))

/-- The day after. -/
def next (d : Date) : Date :=
  if d.day < monthLength d.year d.month then { d with day := d.day + 1 }
  else if d.month < 12 then ⟨d.year, d.month + 1, 1⟩
  else ⟨d.year + 1, 1, 1⟩

/-- The first of January. -/
def newYear (year : Int) : Date := ⟨year, 1, 1⟩

end Date

/-- A time of a day. -/
structure Moment where
  date : Date
  hour : Nat
  minute : Nat
  second : Nat
  deriving DecidableEq, Repr

/-- A time of day of the calendar. -/
def Moment.Valid (m : Moment) : Prop := m.date.Valid ∧ m.hour < 24 ∧ m.minute < 60 ∧ m.second < 60

instance (m : Moment) : Decidable m.Valid := inferInstanceAs (Decidable (_ ∧ _))

/-- The time `n` seconds after the beginning of the day `e`. -/
def Moment.after (e : Date) (n : Nat) : Moment := ⟨Date.next^[n / 86400] e, n / 3600 % 24, n / 60 % 60, n % 60⟩

/-! ## Dates and times as the preprocessor writes them -/

/-- A decimal digit. -/
def dig (n : Nat) : Char := Char.ofNat (48 + n)

/-- Two digits. -/
def two (n : Nat) : List Char := [dig (n / 10), dig (n % 10)]

/-- The months in `__DATE__`. -/
def monthName : Nat → List Char
  | 1 => ['J', 'a', 'n']
  | 2 => ['F', 'e', 'b']
  | 3 => ['M', 'a', 'r']
  | 4 => ['A', 'p', 'r']
  | 5 => ['M', 'a', 'y']
  | 6 => ['J', 'u', 'n']
  | 7 => ['J', 'u', 'l']
  | 8 => ['A', 'u', 'g']
  | 9 => ['S', 'e', 'p']
  | 10 => ['O', 'c', 't']
  | 11 => ['N', 'o', 'v']
  | _ => ['D', 'e', 'c']

/-- The name of the day of the week, counted from Sunday. -/
def weekdayName : Nat → List Char
  | 0 => ['S', 'u', 'n']
  | 1 => ['M', 'o', 'n']
  | 2 => ['T', 'u', 'e']
  | 3 => ['W', 'e', 'd']
  | 4 => ['T', 'h', 'u']
  | 5 => ['F', 'r', 'i']
  | _ => ['S', 'a', 't']

/-- `__DATE__`: "Mmm dd yyyy", the first character of the day being a space if the day is less than 10 (C17 6.10.8.1). -/
def dateText (d : Date) : List Char :=
  monthName d.month ++ [' '] ++ (if d.day < 10 then [' ', dig d.day] else two d.day) ++ [' '] ++ two (d.year.toNat / 100) ++ two (d.year.toNat % 100)

/-- `__TIME__`: "hh:mm:ss". -/
def timeText (h m s : Nat) : List Char := two h ++ [':'] ++ two m ++ [':'] ++ two s

end Spine
