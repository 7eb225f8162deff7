import Verif.Model.Strftime
import Verif.Props.DateTimeObjects
import Verif.Props.Text
/-!
# C150: dates as text
-/

namespace Spine

open DateTime Date

/-- A time as text, like "Thu Jan 01 00:00:00 1970". -/
def momentText (m : Moment) (weekday : Nat) : List Char :=
  weekdayName weekday ++ [' '] ++ monthName m.date.month ++ [' '] ++ two m.date.day ++ [' '] ++ timeText m.hour m.minute m.second ++ [' '] ++ Nat.toDigits 10 m.date.year.toNat

namespace DateTime

theorem next_valid {e : Date} (h : e.Valid) (k : Nat) : (next^[k] e).Valid ∧ e.year ≤ (next^[k] e).year := by
  induction k with
  | zero => exact ⟨h, le_rfl⟩
  | succ k ih =>
    rw [Function.iterate_succ_apply']
    obtain ⟨⟨v1, v2, v3, v4⟩, v5⟩ := ih
    generalize next^[k] e = u at v1 v2 v3 v4 v5
    rw [Date.next]
    split
    · exact ⟨⟨v1, v2, by simp only; omega, by simp only; omega⟩, v5⟩
    · split
      · have l2 := monthLength_pos u.year (u.month + 1)
        exact ⟨⟨by simp only; omega, by simp only; omega, by simp only; omega, by simp only; omega⟩, v5⟩
      · have l2 := monthLength_pos (u.year + 1) 1
        exact ⟨⟨by simp only; omega, by simp only; omega, by simp only; omega, by simp only; omega⟩, by simp only; omega⟩

theorem field_ok {v : Option Int} {lo hi : Int} {n : Nat} (h : v = some (n : Int)) (h1 : lo ≤ n) (h2 : (n : Int) ≤ hi) : field v lo hi = .ok n := by
  subst h
  simp only [field, use, res_bind_ok, if_pos (And.intro h1 h2), res_pure, Int.toNat_natCast]

theorem monthLength_le (y : Int) (m : Nat) : monthLength y m ≤ 31 := by
  unfold monthLength
  split
  · split <;> omega
  · split <;> omega

theorem decimalNat_toDigits (n : Nat) : Text.decimalNat n = Nat.toDigits 10 n := by
  have dc : ∀ d < 10, Text.digitChar d = Nat.digitChar d := by decide
  induction n using Nat.strong_induction_on with
  | _ n ih =>
    rw [Text.decimalNat, Nat.toDigits_eq_if (by decide)]
    split
    · rw [dc _ ‹_›]
    · rw [ih _ (by omega), dc _ (by omega)]

theorem day_abbreviation {w : Nat} (h : w < 7) : rd dayAbbreviations w = .ok (weekdayName w) := by interval_cases w <;> rfl
theorem month_abbreviation {m : Nat} (h1 : 1 ≤ m) (h2 : m ≤ 12) : rd monthAbbreviations (m - 1) = .ok (monthName m) := by interval_cases m <;> rfl
theorem padded_two (n : Nat) : padded n = two n := rfl

theorem formatted_space (tm : Tm) (f : List Char) : formatted tm (' ' :: f) = (do return ' ' :: (← formatted tm f)) := by
  rw [formatted] <;> simp

theorem formatted_default {e : Date} {w n : Nat} {tm : Tm} (he : e.Valid) (hy : 0 ≤ e.year) (h : Shows e w n tm) :
    formatted tm defaultFormat = .ok (momentText (Moment.after e n) ((w + n / 86400) % 7)) := by
  obtain ⟨⟨v1, v2, v3, v4⟩, v5⟩ := next_valid he (n / 86400)
  have hd : (Moment.after e n).date = next^[n / 86400] e := rfl
  rw [← hd] at v1 v2 v3 v4 v5
  have hl := monthLength_le (Moment.after e n).date.year (Moment.after e n).date.month
  have a : field tm.wday 0 6 = .ok ((w + n / 86400) % 7) := field_ok h.wday (by omega) (by omega)
  have b : field tm.mon 0 11 = .ok ((Moment.after e n).date.month - 1) := field_ok (by rw [h.mon]; congr 1; omega) (by omega) (by omega)
  have c : field tm.mday 1 31 = .ok (Moment.after e n).date.day := field_ok h.mday (by omega) (by omega)
  have d : field tm.hour 0 23 = .ok (Moment.after e n).hour := field_ok h.hour (by omega) (by simp only [Moment.after]; omega)
  have f : field tm.min 0 59 = .ok (Moment.after e n).minute := field_ok h.min (by omega) (by simp only [Moment.after]; omega)
  have g : field tm.sec 0 60 = .ok (Moment.after e n).second := field_ok h.sec (by omega) (by simp only [Moment.after]; omega)
  have y : Text.decimal ((Moment.after e n).date.year - 1900 + 1900) = Nat.toDigits 10 (Moment.after e n).date.year.toNat := by rw [← decimalNat_toDigits]; exact decimal_nat (by omega)
  have m := month_abbreviation v1 v2
  have k := day_abbreviation (w := (w + n / 86400) % 7) (by omega)
  simp only [defaultFormat, formatted_space, formatted, conversion, a, b, c, d, f, g, h.year, use, res_bind_ok, res_pure, y, k, m, padded_two]
  simp [momentText, timeText]

theorem weekdayName_length (w : Nat) : (weekdayName w).length = 3 := by unfold weekdayName; split <;> rfl
theorem monthName_length (m : Nat) : (monthName m).length = 3 := by unfold monthName; split <;> rfl
theorem two_length (n : Nat) : (two n).length = 2 := rfl
theorem timeText_length (h m s : Nat) : (timeText h m s).length = 8 := rfl

theorem momentText_length (m : Moment) (w : Nat) : (momentText m w).length = 20 + (Nat.toDigits 10 m.date.year.toNat).length := by
  simp only [momentText, List.length_append, weekdayName_length, monthName_length, two_length, timeText_length, List.length_singleton]

theorem monthName_inj {a b : Nat} (ha : 1 ≤ a ∧ a ≤ 12) (hb : 1 ≤ b ∧ b ≤ 12) (h : monthName a = monthName b) : a = b := by
  obtain ⟨a1, a2⟩ := ha
  obtain ⟨b1, b2⟩ := hb
  interval_cases a <;> interval_cases b <;> first | rfl | (revert h; decide)

theorem dig_inj {a b : Nat} (ha : a < 10) (hb : b < 10) (h : dig a = dig b) : a = b := by
  interval_cases a <;> interval_cases b <;> first | rfl | (revert h; decide)

theorem two_inj {a b : Nat} (ha : a < 100) (hb : b < 100) (h : two a = two b) : a = b := by
  simp only [two, List.cons.injEq, and_true] at h
  have h1 := dig_inj (by omega) (by omega) h.1
  have h2 := dig_inj (by omega) (by omega) h.2
  omega

theorem momentText_inj {m m' : Moment} {w w' : Nat} (hm : m.Valid) (hm' : m'.Valid) (hy : 0 ≤ m.date.year) (hy' : 0 ≤ m'.date.year) (h : momentText m w = momentText m' w') : m = m' := by
  obtain ⟨⟨a1, a2, a3, a4⟩, a5, a6, a7⟩ := hm
  obtain ⟨⟨b1, b2, b3, b4⟩, b5, b6, b7⟩ := hm'
  have l1 := monthLength_le m.date.year m.date.month
  have l2 := monthLength_le m'.date.year m'.date.month
  simp only [momentText, List.append_assoc] at h
  have k1 := List.append_inj h (by simp only [weekdayName_length])
  have k2 := List.append_inj (List.append_inj k1.2 rfl).2 (by simp only [monthName_length])
  have k3 := List.append_inj (List.append_inj k2.2 rfl).2 rfl
  have k4 := List.append_inj (List.append_inj k3.2 rfl).2 rfl
  have k5 := (List.append_inj k4.2 rfl).2
  have e1 := monthName_inj ⟨a1, a2⟩ ⟨b1, b2⟩ k2.1
  have e2 := two_inj (by omega) (by omega) k3.1
  have e3 : m.date.year = m'.date.year := by
    have := congrArg digitsVal k5
    rw [← decimalNat_toDigits, ← decimalNat_toDigits, (decimalNat_spec _).2.2, (decimalNat_spec _).2.2] at this
    omega
  have k6 := k4.1
  simp only [timeText, List.append_assoc] at k6
  have q1 := List.append_inj k6 rfl
  have q2 := List.append_inj (List.append_inj q1.2 rfl).2 rfl
  have q3 := (List.append_inj q2.2 rfl).2
  have e4 := two_inj (by omega) (by omega) q1.1
  have e5 := two_inj (by omega) (by omega) q2.1
  have e6 := two_inj (by omega) (by omega) q3
  obtain ⟨⟨y, mo, d⟩, hh, mi, s⟩ := m
  obtain ⟨⟨y', mo', d'⟩, hh', mi', s'⟩ := m'
  simp only at e1 e2 e3 e4 e5 e6
  subst e1 e2 e3 e4 e5 e6
  rfl

theorem after_valid {e : Date} (h : e.Valid) (n : Nat) : (Moment.after e n).Valid :=
  ⟨(next_valid h (n / 86400)).1, by simp only [Moment.after]; omega, by simp only [Moment.after]; omega, by simp only [Moment.after]; omega⟩

end DateTime

/-- **C150.** A `DateTime` made from a timestamp writes the time as text into a buffer that is large enough for it and a NUL character, and returns its length; into a smaller one it writes
no text and returns 0. It never writes outside the buffer. -/
theorem C150_text {lib : Clib} (h : lib.Utc unixEpoch 4) (b : Build) {n : Nat} (hb : b = .release ∨ 946684800 ≤ n) (hn : n < 2 ^ 63) {buffer : List Char} {size : Nat} (hs : size ≤ buffer.length) :
    ∃ o, create lib b true n = .ok o ∧
      ((momentText (Moment.after unixEpoch n) ((4 + n / 86400) % 7)).length < size →
        ∃ rest, o.strf buffer size = .ok ((momentText (Moment.after unixEpoch n) ((4 + n / 86400) % 7)).length, some (momentText (Moment.after unixEpoch n) ((4 + n / 86400) % 7) ++ '\x00' :: rest)) ∧
          (momentText (Moment.after unixEpoch n) ((4 + n / 86400) % 7) ++ '\x00' :: rest).length = buffer.length ∧ rest <:+ buffer) ∧
      (size ≤ (momentText (Moment.after unixEpoch n) ((4 + n / 86400) % 7)).length → o.strf buffer size = .ok (0, none)) := by
  have hst : ofTimestamp b true n = .ok ((n : Int), (n : Int) - 946684800) := by
    rcases hb with rfl | hb
    · exact C84_release true (by omega) (by omega)
    · exact C84_after_2000_partial b (by omega) (by omega)
  have hf := formatted_default (by decide) (by decide) (h.gmtime n)
  refine ⟨⟨n, n - 946684800, lib.gmtime n⟩, by rw [create, hst]; rfl, fun hl => ?_, fun hl => ?_⟩
  · refine ⟨buffer.drop ((momentText (Moment.after unixEpoch n) ((4 + n / 86400) % 7)).length + 1), ?_, ?_, List.drop_suffix _ _⟩
    · simp only [Obj.strf, strftime, if_neg (not_lt.mpr hs), res_pure, res_bind_ok, hf, if_pos hl]
    · simp only [List.length_append, List.length_cons, List.length_drop]; omega
  · simp only [Obj.strf, strftime, if_neg (not_lt.mpr hs), res_pure, res_bind_ok, hf, if_neg (not_lt.mpr hl)]

theorem decimalNat_four {y : Nat} (h1 : 1000 ≤ y) (h2 : y < 10000) : Text.decimalNat y = two (y / 100) ++ two (y % 100) := by
  rw [Text.decimalNat, if_neg (by omega), Text.decimalNat, if_neg (by omega), Text.decimalNat, if_neg (by omega), Text.decimalNat, if_pos (by omega)]
  have e1 : y / 10 / 10 / 10 = y / 100 / 10 := by omega
  have e2 : y / 10 / 10 % 10 = y / 100 % 10 := by omega
  have e3 : y / 10 % 10 = y % 100 / 10 := by omega
  have e4 : y % 10 = y % 100 % 10 := by omega
  rw [e1, e2, e3, e4]
  rfl

/-- C150: up to the year 9999 the text has 24 characters, so that 25 are enough for `C150_text` and 24 are not. -/
theorem C150_length {n : Nat} (hn : (Moment.after unixEpoch n).date.year < 10000) : (momentText (Moment.after unixEpoch n) ((4 + n / 86400) % 7)).length = 24 := by
  have hy : 1970 ≤ (Moment.after unixEpoch n).date.year := (next_valid (by decide) (n / 86400)).2
  rw [momentText_length, ← decimalNat_toDigits, decimalNat_four (by omega) (by omega)]
  rfl

/-- C150: different times have different texts. -/
theorem C150_distinct {n n' : Nat} (h : momentText (Moment.after unixEpoch n) ((4 + n / 86400) % 7) = momentText (Moment.after unixEpoch n') ((4 + n' / 86400) % 7)) : n = n' := by
  have hv : unixEpoch.Valid := by decide
  have hy : ∀ k, 0 ≤ (Moment.after unixEpoch k).date.year := fun k => le_trans (by decide) (next_valid hv (k / 86400)).2
  exact after_inj hv (momentText_inj (after_valid hv n) (after_valid hv n') (hy n) (hy n') h)

namespace DateTime

theorem formatted_colon (tm : Tm) (f : List Char) : formatted tm (':' :: f) = (do return ':' :: (← formatted tm f)) := by
  rw [formatted] <;> simp

/-- The date in the order of `__DATE__`. -/
def dateFormat : List Char := ['%', 'h', ' ', '%', 'd', ' ', '%', 'Y']

/-- The time in the order of `__TIME__`. -/
def timeFormat : List Char := ['%', 'T']

theorem formatted_date {e : Date} {w n : Nat} {tm : Tm} (he : e.Valid) (h : Shows e w n tm) (hy : 1000 ≤ e.year) (hy' : (Moment.after e n).date.year < 10000) :
    formatted tm dateFormat = .ok (monthName (Moment.after e n).date.month ++ (' ' :: (two (Moment.after e n).date.day ++
      (' ' :: (two ((Moment.after e n).date.year.toNat / 100) ++ two ((Moment.after e n).date.year.toNat % 100)))))) ∧
    formatted tm timeFormat = .ok (timeText (Moment.after e n).hour (Moment.after e n).minute (Moment.after e n).second) := by
  obtain ⟨⟨v1, v2, v3, v4⟩, v5⟩ := next_valid he (n / 86400)
  have hd : (Moment.after e n).date = next^[n / 86400] e := rfl
  rw [← hd] at v1 v2 v3 v4 v5
  have hl := monthLength_le (Moment.after e n).date.year (Moment.after e n).date.month
  have b : field tm.mon 0 11 = .ok ((Moment.after e n).date.month - 1) := field_ok (by rw [h.mon]; congr 1; omega) (by omega) (by omega)
  have c : field tm.mday 1 31 = .ok (Moment.after e n).date.day := field_ok h.mday (by omega) (by omega)
  have d : field tm.hour 0 23 = .ok (Moment.after e n).hour := field_ok h.hour (by omega) (by simp only [Moment.after]; omega)
  have f : field tm.min 0 59 = .ok (Moment.after e n).minute := field_ok h.min (by omega) (by simp only [Moment.after]; omega)
  have g : field tm.sec 0 60 = .ok (Moment.after e n).second := field_ok h.sec (by omega) (by simp only [Moment.after]; omega)
  have y : Text.decimal ((Moment.after e n).date.year - 1900 + 1900) = Text.decimalNat (Moment.after e n).date.year.toNat := decimal_nat (by omega)
  have m := month_abbreviation v1 v2
  constructor
  · simp only [dateFormat, formatted_space, formatted, conversion, b, c, h.year, use, res_bind_ok, res_pure, y, m, padded_two]
    rw [decimalNat_four (by omega) (by omega)]
    simp
  · simp only [timeFormat, formatted, conversion, d, f, g, res_bind_ok, res_pure, padded_two, List.append_nil]
    rfl

theorem scanDate_written {d : Date} (h : d.Valid) (hy : 0 ≤ d.year ∧ d.year < 10000) :
    scanDate (monthName d.month ++ (' ' :: (two d.day ++ (' ' :: (two (d.year.toNat / 100) ++ two (d.year.toNat % 100)))))) =
      (some (monthName d.month), some (d.day : Int), some d.year) := by
  obtain ⟨h1, h2, h3, h4⟩ := h
  have hl := monthLength_le d.year d.month
  obtain ⟨n, hn⟩ := Int.eq_ofNat_of_zero_le hy.1
  have e1 : ∀ rest, scanWord (monthName d.month ++ (' ' :: rest)) = some (monthName d.month, ' ' :: rest) := by
    intro rest
    generalize d.month = m at h1 h2
    interval_cases m <;> rfl
  rw [scanDate, e1]
  simp only
  rw [scanD_two (w := 0) (by omega) (.inr rfl)]
  simp only
  rw [hn, Int.toNat_natCast, scanD_four (by omega)]
  simp

end DateTime

/-- C150 (partial): what is written in the formats `"%h %d %Y"` and `"%T"` is read by the constructor that takes a date and a time as text: it sets the same fields, up to the year 9999. Missing: hours,
minutes and seconds of 8 and 9, which are written as 08 and 09 and read as octal numbers (`C150_octal_counterexample`); and the timestamps, since `mktime` is then undefined
(`C83_dst_counterexample`). -/
theorem C150_read_back_partial {lib : Clib} (h : lib.Utc unixEpoch 4) {n : Nat} (hn : (Moment.after unixEpoch n).date.year < 10000)
    (h8 : ∀ k ∈ [(Moment.after unixEpoch n).hour, (Moment.after unixEpoch n).minute, (Moment.after unixEpoch n).second], k ≠ 8 ∧ k ≠ 9) (buff buffer : List Char) (hl : 12 ≤ buffer.length) :
    ∃ date time r r' tm, strftime buffer 12 dateFormat (lib.gmtime n) = .ok (date.length, some (date ++ '\x00' :: r)) ∧
      strftime buffer 12 timeFormat (lib.gmtime n) = .ok (time.length, some (time ++ '\x00' :: r')) ∧ fieldsOf buff date time = .ok tm ∧
      tm.Same (lib.gmtime n) ∧ tm.yday = (lib.gmtime n).yday := by
  have hs := h.gmtime n
  have hv : unixEpoch.Valid := by decide
  have hm := after_valid hv n
  have hy : 1970 ≤ (Moment.after unixEpoch n).date.year := (next_valid hv (n / 86400)).2
  obtain ⟨f1, f2⟩ := formatted_date hv hs (by decide) hn
  obtain ⟨k, e, e'⟩ := C60_year_day hm.1
  refine ⟨_, _, buffer.drop 12, buffer.drop 9, _, ?_, ?_, fieldsOf_of (scanDate_written hm.1 ⟨by omega, hn⟩) (monthOf_name hm.1) (scanTime_text hm.2.1 hm.2.2.1 hm.2.2.2 h8)
    (inInt_small (by have := hm.2.1; omega)) (inInt_small hm.2.2.1) (inInt_small hm.2.2.2) e, ⟨hs.sec.symm, hs.min.symm, hs.hour.symm, hs.mday.symm, hs.mon.symm, hs.year.symm⟩, ?_⟩
  · simp only [strftime, if_neg (not_lt.mpr hl), res_pure, res_bind_ok, f1]
    have hlen : (monthName (Moment.after unixEpoch n).date.month ++ (' ' :: (two (Moment.after unixEpoch n).date.day ++ (' ' :: (two ((Moment.after unixEpoch n).date.year.toNat / 100) ++
        two ((Moment.after unixEpoch n).date.year.toNat % 100)))))).length = 11 := by
      simp only [List.length_append, List.length_cons, monthName_length, two_length]
    rw [hlen, if_pos (by omega)]
  · simp only [strftime, if_neg (not_lt.mpr hl), res_pure, res_bind_ok, f2]
    rw [timeText_length, if_pos (by omega)]
  · obtain ⟨k', h1, h2⟩ := hs.yday
    rw [h1]
    have : k = k' := C60_unique (d := newYear (Moment.after unixEpoch n).date.year) ⟨le_rfl, by norm_num [newYear], le_rfl, by simp [newYear, monthLength]⟩ (e'.trans h2.symm)
    rw [this]

/-- A leap day. -/
example : momentText (Moment.after unixEpoch 68171696) ((4 + 68171696 / 86400) % 7) =
    ['T', 'u', 'e', ' ', 'F', 'e', 'b', ' ', '2', '9', ' ', '0', '0', ':', '3', '4', ':', '5', '6', ' ', '1', '9', '7', '2'] := by decide +kernel

/-- C150 is false for hours of 8 and 9: the text written cannot be read, whatever the date. -/
theorem C150_octal_counterexample {lib : Clib} (h : lib.Utc unixEpoch 4) {n : Nat} (hn : (Moment.after unixEpoch n).hour = 8 ∨ (Moment.after unixEpoch n).hour = 9)
    (hy : (Moment.after unixEpoch n).date.year < 10000) (buff date : List Char) :
    ∃ time, formatted (lib.gmtime n) timeFormat = .ok time ∧ fieldsOf buff date time = .error .ub := by
  obtain ⟨-, f2⟩ := formatted_date (by decide) (h.gmtime n) (by decide) hy
  refine ⟨_, f2, ?_⟩
  rw [timeText, List.append_assoc, List.append_assoc, List.append_assoc]
  exact C83_octal_counterexample buff date _ hn

/-- Nine o'clock on the first day. -/
example : (Moment.after unixEpoch 32400).hour = 9 := by decide +kernel

end Spine
