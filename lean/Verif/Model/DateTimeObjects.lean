import Verif.Model.DateTime
import Verif.Spec.Calendar
/-!
# Model of `DateTime` objects

`/repo/src/spine/structure/time/datetime.cpp` and `datetime.hpp`: the constructors from a timestamp and from numbers, and the getters. `gmtime_r` and `mktime` belong to the C library: a
library is what these make of their arguments, and `Clib.Utc` states what is assumed of it, for a program that runs in UTC. `strf_DateTime` is in `Strftime`.
-/

namespace Spine
namespace DateTime

/-- `gmtime_r`: the fields written for a time; `mktime`: the time and the fields as they are left. -/
structure Clib where
  gmtime : Int → Tm
  mktime : Tm → Int × Tm

/-- The fields say that it is `n` seconds after the beginning of the day `e`, a weekday numbered `w` from Sunday (C17 7.27.1 p4). -/
structure Shows (e : Date) (w : Nat) (n : Nat) (tm : Tm) : Prop where
  sec : tm.sec = some ((Moment.after e n).second : Int)
  min : tm.min = some ((Moment.after e n).minute : Int)
  hour : tm.hour = some ((Moment.after e n).hour : Int)
  mday : tm.mday = some ((Moment.after e n).date.day : Int)
  mon : tm.mon = some ((Moment.after e n).date.month - 1 : Int)
  year : tm.year = some ((Moment.after e n).date.year - 1900)
  wday : tm.wday = some (((w + n / 86400) % 7 : Nat) : Int)
  yday : ∃ k : Nat, tm.yday = some (k : Int) ∧ Date.next^[k] (Date.newYear (Moment.after e n).date.year) = (Moment.after e n).date
  isdst : tm.isdst = some 0

/-- Two `struct tm` agree in the fields that `mktime` reads, apart from the daylight saving flag. -/
def Tm.Same (a b : Tm) : Prop := a.sec = b.sec ∧ a.min = b.min ∧ a.hour = b.hour ∧ a.mday = b.mday ∧ a.mon = b.mon ∧ a.year = b.year

/-- The C library counts seconds from the beginning of the day `e`, a weekday numbered `w`, in UTC. `mktime` ignores the day of the week and of the year and sets them (C17 7.27.2.3); a
flag of 0 says that there is no daylight saving time, a negative one that it is not known. -/
structure Clib.Utc (e : Date) (w : Nat) (lib : Clib) : Prop where
  gmtime : ∀ n : Nat, Shows e w n (lib.gmtime n)
  mktime : ∀ (n : Nat) (tm tm' : Tm) (dst : Int), Shows e w n tm' → tm.Same tm' → tm.isdst = some dst → dst ≤ 0 → (lib.mktime tm).1 = n ∧ Shows e w n (lib.mktime tm).2

/-- The members of a `DateTime`, `datetime.hpp:52-54`. -/
structure Obj where
  unix : Int
  y2k : Int
  tm : Tm
  deriving DecidableEq

/-- `DateTime(time_t)`, `datetime.cpp:87-91`, with a `time_t` of 64 bits. -/
def create (lib : Clib) (b : Build) (wide : Bool) (t : Int) : Res Obj := do
  let stamps ← ofTimestamp b wide t
  return ⟨stamps.1, stamps.2, lib.gmtime stamps.1⟩

/-- `DateTime(time_t)` on AVR, where `time_t` and `unsigned long` have 32 bits. -/
def createAvr (lib : Clib) (b : Build) (t : Nat) : Res Obj := do
  let y2k := (t - unixOffset) % 2 ^ 32
  spnAssert b (decide (y2k ≤ 2 ^ 31 - 1))
  return ⟨t, y2k, lib.gmtime t⟩

/-- `set_timestamps`, `datetime.cpp:148-156`: on AVR (32-bit `time_t`, 32-bit `unsigned long`) and elsewhere (64-bit `time_t`). -/
def stamped (lib : Clib) (avr : Bool) (tm : Tm) : Res Obj := do
  let _ ← [tm.sec, tm.min, tm.hour, tm.mday, tm.mon, tm.year, tm.isdst].mapM use
  let r := lib.mktime tm
  if avr then return ⟨(r.1 + unixOffset) % 2 ^ 32, r.1, r.2⟩
  else return ⟨r.1, Int.bmod (r.1 - unixOffset) (2 ^ 64), r.2⟩

/-- `DateTime(int year, ...)`, `datetime.cpp:105-117`. -/
def ofNumbers (lib : Clib) (avr : Bool) (year month day hour min sec wday yday dst : Int) : Res Obj :=
  stamped lib avr (fieldsOfInts year month day hour min sec wday yday dst)

/-- The getters, `datetime.hpp:28-36`, `:40`, `:46`. -/
def Obj.getYear (o : Obj) : Res Int := do return (← use o.tm.year) + 1900
def Obj.getMonth (o : Obj) : Res Int := do return (← use o.tm.mon) + 1
def Obj.getDay (o : Obj) : Res Int := use o.tm.mday
def Obj.getHour (o : Obj) : Res Int := use o.tm.hour
def Obj.getMinute (o : Obj) : Res Int := use o.tm.min
def Obj.getSecond (o : Obj) : Res Int := use o.tm.sec
def Obj.getWeekDay (o : Obj) : Res Int := use o.tm.wday
def Obj.getYearDay (o : Obj) : Res Int := use o.tm.yday
def Obj.getDST (o : Obj) : Res Int := use o.tm.isdst
def Obj.getY2kTime (o : Obj) : Int := o.y2k
def Obj.getUnixTime (o : Obj) : Int := o.unix

end DateTime
end Spine
