import Verif.Model.DateTimeObjects
import Verif.Props.DateTime
/-!
# C132: dates and timestamps
-/

namespace Spine

open DateTime Date

namespace DateTime

/-- The beginning of the Unix epoch, a Thursday. -/
def unixEpoch : Date := newYear 1970

/-- The beginning of the epoch of the AVR library, a Saturday. -/
def avrEpoch : Date := newYear 2000

/-- The getters tell a time. -/
structure Obj.Tells (o : Obj) (m : Moment) (weekday : Nat) : Prop where
  year : o.getYear = .ok m.date.year
  month : o.getMonth = .ok (m.date.month : Int)
  day : o.getDay = .ok (m.date.day : Int)
  hour : o.getHour = .ok (m.hour : Int)
  minute : o.getMinute = .ok (m.minute : Int)
  second : o.getSecond = .ok (m.second : Int)
  weekday : o.getWeekDay = .ok (weekday : Int)
  yearday : ∃ k : Nat, o.getYearDay = .ok (k : Int) ∧ next^[k] (newYear m.date.year) = m.date
  dst : o.getDST = .ok 0

theorem Shows.tells {e : Date} {w n : Nat} {o : Obj} (h : Shows e w n o.tm) : o.Tells (Moment.after e n) ((w + n / 86400) % 7) := by
  refine ⟨?_, ?_, ?_, ?_, ?_, ?_, ?_, ?_, ?_⟩
  · rw [Obj.getYear, h.year]; simp only [use, res_bind_ok, res_pure]; congr 1; omega
  · rw [Obj.getMonth, h.mon]; simp only [use, res_bind_ok, res_pure]; congr 1; omega
  · rw [Obj.getDay, h.mday]; rfl
  · rw [Obj.getHour, h.hour]; rfl
  · rw [Obj.getMinute, h.min]; rfl
  · rw [Obj.getSecond, h.sec]; rfl
  · rw [Obj.getWeekDay, h.wday]; rfl
  · obtain ⟨k, h1, h2⟩ := h.yday
    exact ⟨k, by rw [Obj.getYearDay, h1]; rfl, h2⟩
  · rw [Obj.getDST, h.isdst]; rfl

/-- Days of a year. -/
theorem next_year (y : Int) : next^[daysBefore y 11 + 31] (newYear y) = newYear (y + 1) := by
  rw [Nat.add_comm, Function.iterate_add_apply, next_months 11 (by norm_num)]
  have e : monthLength y 12 = 31 := by simp [monthLength]
  rw [show 31 = 1 + 30 by rfl, Function.iterate_add_apply, next_days 30 1 (by rw [e])]
  simp [Date.next, e, newYear]

/-- Days from one new year to a later one. -/
def yearsLength (y : Int) : Nat → Nat
  | 0 => 0
  | k + 1 => daysBefore y 11 + 31 + yearsLength (y + 1) k

theorem next_years (k : Nat) : ∀ y : Int, next^[yearsLength y k] (newYear y) = newYear (y + k) := by
  induction k with
  | zero => intro y; simp [yearsLength]
  | succ k ih =>
    intro y
    rw [yearsLength, Nat.add_comm, Function.iterate_add_apply, next_year, ih]
    congr 1
    push_cast
    ring

/-- Every later date is some number of days later. -/
theorem reaches {y : Int} {d : Date} (h : d.Valid) (hy : y ≤ d.year) : ∃ n, next^[n] (newYear y) = d := by
  obtain ⟨k, hk⟩ := Int.eq_ofNat_of_zero_le (sub_nonneg.mpr hy)
  obtain ⟨n, _, hn⟩ := C60_year_day h
  refine ⟨n + yearsLength y k, ?_⟩
  rw [Function.iterate_add_apply, next_years, show y + (k : Int) = d.year by omega, hn]

/-- Every later time is some number of seconds later. -/
theorem reaches_moment {y : Int} {m : Moment} (h : m.Valid) (hy : y ≤ m.date.year) : ∃ n, Moment.after (newYear y) n = m := by
  obtain ⟨hd, h1, h2, h3⟩ := h
  obtain ⟨n, hn⟩ := reaches hd hy
  obtain ⟨d, hh, mm, ss⟩ := m
  simp only at h1 h2 h3 hn
  refine ⟨n * 86400 + (hh * 3600 + mm * 60 + ss), ?_⟩
  unfold Moment.after
  rw [show (n * 86400 + (hh * 3600 + mm * 60 + ss)) / 86400 = n by omega, hn,
    show (n * 86400 + (hh * 3600 + mm * 60 + ss)) / 3600 % 24 = hh by omega,
    show (n * 86400 + (hh * 3600 + mm * 60 + ss)) / 60 % 60 = mm by omega,
    show (n * 86400 + (hh * 3600 + mm * 60 + ss)) % 60 = ss by omega]

/-- Times do not repeat. -/
theorem after_inj {e : Date} (h : e.Valid) {a b : Nat} (hab : Moment.after e a = Moment.after e b) : a = b := by
  unfold Moment.after at hab
  injection hab with h1 h2 h3 h4
  have := C60_unique h h1
  omega

/-- The fields handed to `mktime` for a time. -/
theorem fields_same {e : Date} {w n : Nat} {tm : Tm} (h : Shows e w n tm) (wday yday dst : Int) :
    (fieldsOfInts (Moment.after e n).date.year (Moment.after e n).date.month (Moment.after e n).date.day (Moment.after e n).hour (Moment.after e n).minute
      (Moment.after e n).second wday yday dst).Same tm :=
  ⟨h.sec.symm, h.min.symm, h.hour.symm, h.mday.symm, h.mon.symm, h.year.symm⟩

end DateTime

/-- A library that behaves as assumed exists, for every epoch. -/
theorem utc_exists {e : Date} (h : e.Valid) (w : Nat) : ∃ lib : Clib, lib.Utc e w := by
  classical
  have hex : ∀ n : Nat, ∃ tm, Shows e w n tm := by
    intro n
    have hv : (Moment.after e n).date.Valid := by
      show (Date.next^[n / 86400] e).Valid
      generalize n / 86400 = k
      induction k with
      | zero => exact h
      | succ k ih =>
        rw [Function.iterate_succ_apply']
        obtain ⟨v1, v2, v3, v4⟩ := ih
        generalize Date.next^[k] e = u at v1 v2 v3 v4
        rw [Date.next]
        split
        · exact ⟨v1, v2, by simp only; omega, by simp only; omega⟩
        · split
          · have l2 := monthLength_pos u.year (u.month + 1)
            exact ⟨by simp only; omega, by simp only; omega, by simp only; omega, by simp only; omega⟩
          · have l2 := monthLength_pos (u.year + 1) 1
            exact ⟨by simp only; omega, by simp only; omega, by simp only; omega, by simp only; omega⟩
    obtain ⟨k, _, hk⟩ := C60_year_day hv
    exact ⟨⟨some _, some _, some _, some _, some _, some _, some _, some k, some 0⟩, rfl, rfl, rfl, rfl, rfl, rfl, rfl, ⟨k, rfl, hk⟩, rfl⟩
  refine ⟨⟨fun t => (hex t.toNat).choose, fun tm => if hx : ∃ n : Nat, ∃ tm', Shows e w n tm' ∧ tm.Same tm' then (hx.choose, (hex hx.choose).choose) else (-1, tm)⟩, ?_, ?_⟩
  · intro n
    exact (hex n).choose_spec
  · intro n tm tm' dst hs hsame _ _
    have hx : ∃ n : Nat, ∃ tm', Shows e w n tm' ∧ tm.Same tm' := ⟨n, tm', hs, hsame⟩
    have hn : hx.choose = n := by
      obtain ⟨tm'', s2, a1, a2, a3, a4, a5, a6⟩ := hx.choose_spec
      obtain ⟨b1, b2, b3, b4, b5, b6⟩ := hsame
      have s1 := hs
      refine after_inj h ?_
      generalize hx.choose = c at s2
      have e1 := Option.some.inj (s2.sec.symm.trans (a1.symm.trans (b1.trans s1.sec)))
      have e2 := Option.some.inj (s2.min.symm.trans (a2.symm.trans (b2.trans s1.min)))
      have e3 := Option.some.inj (s2.hour.symm.trans (a3.symm.trans (b3.trans s1.hour)))
      have e4 := Option.some.inj (s2.mday.symm.trans (a4.symm.trans (b4.trans s1.mday)))
      have e5 := Option.some.inj (s2.mon.symm.trans (a5.symm.trans (b5.trans s1.mon)))
      have e6 := Option.some.inj (s2.year.symm.trans (a6.symm.trans (b6.trans s1.year)))
      generalize Moment.after e c = p at e1 e2 e3 e4 e5 e6
      generalize Moment.after e n = q at e1 e2 e3 e4 e5 e6
      obtain ⟨⟨y, mo, d⟩, hh, mm, ss⟩ := p
      obtain ⟨⟨y', mo', d'⟩, hh', mm', ss'⟩ := q
      simp only at e1 e2 e3 e4 e5 e6
      congr 1
      · congr 1 <;> omega
      · omega
      · omega
      · omega
    simp only [hx, dif_pos]
    rw [hn]
    exact ⟨rfl, (hex n).choose_spec⟩

/-- C132 (partial): the getters of a `DateTime` made from a timestamp tell the date and the time of day that many seconds after the beginning of 1970, with a 64-bit `time_t`, in release
builds or from 2000 on. Missing: earlier times in debug builds (`C84_epoch_counterexample`) and AVR (`C132_avr_counterexample`). -/
theorem C132_getters_partial {lib : Clib} (h : lib.Utc unixEpoch 4) (b : Build) {n : Nat} (hb : b = .release ∨ 946684800 ≤ n) (hn : n < 2 ^ 63) :
    ∃ o, create lib b true n = .ok o ∧ o.getUnixTime = n ∧ o.getY2kTime = n - 946684800 ∧ o.Tells (Moment.after unixEpoch n) ((4 + n / 86400) % 7) := by
  have hs : ofTimestamp b true n = .ok ((n : Int), (n : Int) - 946684800) := by
    rcases hb with rfl | hb
    · exact C84_release true (by omega) (by omega)
    · exact C84_after_2000_partial b (by omega) (by omega)
  refine ⟨⟨n, n - 946684800, lib.gmtime n⟩, ?_, rfl, rfl, Shows.tells (h.gmtime n)⟩
  rw [create, hs]
  rfl

/-- C132: the other way round: every time of day from 1970 on is what a `DateTime` made from its numbers tells, whatever day of the week and of the year is given, and its timestamp is the
number of seconds from the beginning of 1970 to then. -/
theorem C132_numbers {lib : Clib} (h : lib.Utc unixEpoch 4) {m : Moment} (hm : m.Valid) (hy : 1970 ≤ m.date.year) (wday yday : Int) {dst : Int} (hd : dst ≤ 0) :
    ∃ n : Nat, Moment.after unixEpoch n = m ∧
      ∃ o, ofNumbers lib false m.date.year m.date.month m.date.day m.hour m.minute m.second wday yday dst = .ok o ∧
        o.getUnixTime = n ∧ (n < 2 ^ 63 → o.getY2kTime = n - 946684800) ∧ o.Tells m ((4 + n / 86400) % 7) := by
  obtain ⟨n, rfl⟩ := reaches_moment hm hy
  refine ⟨n, rfl, ?_⟩
  have hs := h.gmtime n
  obtain ⟨k1, k2⟩ := h.mktime n _ _ dst hs (fields_same hs wday yday dst) rfl hd
  refine ⟨⟨_, _, _⟩, rfl, k1, ?_, Shows.tells k2⟩
  intro hn
  show Int.bmod ((lib.mktime _).1 - unixOffset) (2 ^ 64) = _
  have k1' := k1
  unfold unixEpoch at k1'
  rw [k1']
  unfold unixOffset
  rw [Int.bmod_eq_of_le] <;> omega

/-- C132: a `DateTime` made from what the getters of another one tell has the same timestamp. -/
theorem C132_round_trip {lib : Clib} (h : lib.Utc unixEpoch 4) {n : Nat} (hn : n < 2 ^ 63) (wday yday : Int) {dst : Int} (hd : dst ≤ 0) :
    ∃ o o' y mo d hh mi s, create lib .release true n = .ok o ∧ o.getYear = .ok y ∧ o.getMonth = .ok mo ∧ o.getDay = .ok d ∧ o.getHour = .ok hh ∧ o.getMinute = .ok mi ∧
      o.getSecond = .ok s ∧ ofNumbers lib false y mo d hh mi s wday yday dst = .ok o' ∧ o'.getUnixTime = n := by
  obtain ⟨o, h1, _, _, t⟩ := C132_getters_partial h .release (.inl rfl) hn
  have hs := h.gmtime n
  obtain ⟨k1, k2⟩ := h.mktime n _ _ dst hs (fields_same hs wday yday dst) rfl hd
  exact ⟨o, ⟨_, _, _⟩, _, _, _, _, _, _, h1, t.year, t.month, t.day, t.hour, t.minute, t.second, rfl, k1⟩

/-- A leap day and the last second of a century meet the hypotheses. -/
example : (⟨⟨2024, 2, 29⟩, 12, 0, 0⟩ : Moment).Valid ∧ (⟨⟨1999, 12, 31⟩, 23, 59, 59⟩ : Moment).Valid ∧ (∃ lib : Clib, lib.Utc unixEpoch 4) ∧
    Moment.after unixEpoch 5184000 = ⟨⟨1970, 3, 2⟩, 0, 0, 0⟩ :=
  ⟨by decide +kernel, by decide +kernel, utc_exists (by decide +kernel) 4, by decide +kernel⟩

/-- There are 10957 days between the epochs. -/
theorem epochs : next^[10957] unixEpoch = avrEpoch := by
  have := next_years 30 1970
  rwa [show yearsLength 1970 30 = 10957 by decide +kernel] at this

/-- On AVR, too, the timestamps are those of the numbers given (up to the range of 32 bits). -/
theorem C132_avr_numbers {lib : Clib} (h : lib.Utc avrEpoch 6) {m : Moment} (hm : m.Valid) (hy : 2000 ≤ m.date.year) (wday yday : Int) {dst : Int} (hd : dst ≤ 0) :
    ∃ n : Nat, Moment.after unixEpoch n = m ∧
      (n < 2 ^ 32 → ∃ o, ofNumbers lib true m.date.year m.date.month m.date.day m.hour m.minute m.second wday yday dst = .ok o ∧
        o.getUnixTime = n ∧ o.getY2kTime = n - 946684800) := by
  obtain ⟨n, rfl⟩ := reaches_moment hm hy
  refine ⟨n + 946684800, ?_, fun hn => ?_⟩
  · unfold Moment.after
    rw [show (n + 946684800) / 86400 = n / 86400 + 10957 by omega, Function.iterate_add_apply, epochs]
    unfold avrEpoch
    congr 1 <;> omega
  have hs := h.gmtime n
  obtain ⟨k1, k2⟩ := h.mktime n _ _ dst hs (fields_same hs wday yday dst) rfl hd
  unfold avrEpoch at k1
  refine ⟨⟨_, _, _⟩, rfl, ?_, ?_⟩
  · show ((lib.mktime _).1 + unixOffset) % 2 ^ 32 = _
    rw [k1]
    unfold unixOffset
    push_cast
    omega
  · show (lib.mktime _).1 = _
    rw [k1]
    push_cast
    omega

/-- C132 is false on AVR, whose library counts from 2000: the date of a `DateTime` made from any Unix timestamp from 2000 on is 10957 days late. -/
theorem C132_avr_counterexample {lib : Clib} (h : lib.Utc avrEpoch 6) {n : Nat} (h1 : 946684800 ≤ n) (h2 : n ≤ 3094168447) :
    ∃ o, createAvr lib .debug n = .ok o ∧ o.getUnixTime = n ∧
      ∃ m : Moment, o.Tells m ((6 + n / 86400) % 7) ∧ m.date = next^[10957] (Moment.after unixEpoch n).date ∧ m.date ≠ (Moment.after unixEpoch n).date := by
  have e : ((n : Int) - unixOffset) % 2 ^ 32 = n - 946684800 := by unfold unixOffset; omega
  refine ⟨⟨n, n - 946684800, lib.gmtime n⟩, ?_, rfl, Moment.after avrEpoch n, Shows.tells (h.gmtime n), ?_, ?_⟩
  · rw [createAvr, e]
    rw [decide_eq_true (by omega), spnAssert_true, res_bind_ok]
    rfl
  · show next^[n / 86400] avrEpoch = next^[10957] (next^[n / 86400] unixEpoch)
    rw [← epochs, ← Function.iterate_add_apply, ← Function.iterate_add_apply, Nat.add_comm]
  · show next^[n / 86400] avrEpoch ≠ next^[n / 86400] unixEpoch
    rw [← epochs, ← Function.iterate_add_apply]
    intro hc
    have := C60_unique (d := unixEpoch) (by decide +kernel) hc
    omega

example : ∃ lib : Clib, lib.Utc avrEpoch 6 := utc_exists (by decide +kernel) 6

end Spine
