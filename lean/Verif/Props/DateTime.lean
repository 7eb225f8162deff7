import Verif.Model.DateTime
import Verif.Spec.Calendar
import Verif.Core.Bind
import Mathlib.Tactic.Linarith
import Mathlib.Tactic.Ring
import Mathlib.Tactic.IntervalCases
/-!
# C60, C83, C84: dates
-/

namespace Spine

open DateTime Date

/-! ## C60: leap years and the day of the year -/

/-- C60: leap years are the Gregorian leap years, for all years. -/
theorem C60_leap (year : Int) : isLeapYear year = true ↔ Leap year := by
  unfold isLeapYear Leap
  simp only [Int.dvd_iff_tmod_eq_zero]
  by_cases h : Int.tmod year 4 = 0
  · simp only [h, ne_eq, not_true_eq_false, if_false, Bool.or_eq_true, decide_eq_true_eq, true_and]
    tauto
  · simp [h]

/-- Days of the same month. -/
theorem next_days {y : Int} {m : Nat} (k : Nat) : ∀ d, d + k ≤ monthLength y m → Date.next^[k] ⟨y, m, d⟩ = ⟨y, m, d + k⟩ := by
  induction k with
  | zero => intros; rfl
  | succ k ih =>
    intro d h
    have e : Date.next ⟨y, m, d⟩ = ⟨y, m, d + 1⟩ := by rw [Date.next, if_pos (show d < monthLength y m by omega)]
    rw [Function.iterate_succ_apply, e, ih _ (by omega)]
    congr 1
    omega

/-- From the first of a month to the first of the next. -/
theorem next_month {y : Int} {m : Nat} (hm : m < 12) (hl : 0 < monthLength y m) :
    Date.next^[monthLength y m] ⟨y, m, 1⟩ = ⟨y, m + 1, 1⟩ := by
  obtain ⟨k, hk⟩ := Nat.exists_eq_succ_of_ne_zero hl.ne'
  rw [hk, Function.iterate_succ_apply', next_days k 1 (by omega), Date.next, if_neg (by simp only; omega), if_pos hm]

theorem monthLength_pos (y : Int) (m : Nat) : 28 ≤ monthLength y m ∧ monthLength y m ≤ 31 := by
  unfold monthLength
  split
  · split <;> omega
  · split <;> omega

/-- Days before a month. -/
def daysBefore (y : Int) : Nat → Nat
  | 0 => 0
  | m + 1 => daysBefore y m + monthLength y (m + 1)

theorem next_months {y : Int} (m : Nat) (hm : m < 12) : Date.next^[daysBefore y m] (newYear y) = ⟨y, m + 1, 1⟩ := by
  induction m with
  | zero => rfl
  | succ m ih =>
    rw [daysBefore, Nat.add_comm, Function.iterate_add_apply, ih (by omega), next_month hm (by have := monthLength_pos y (m + 1); omega)]

theorem addMonths_add (n : Nat) : ∀ i d e, addMonths n i (d + e) = (addMonths n i d).map (· + e) := by
  induction n with
  | zero => intros; rfl
  | succ n ih =>
    intro i d e
    rw [addMonths, addMonths]
    cases rd daysInMonth (i - 1) with
    | error => rfl
    | ok v => simp only [res_bind_ok]; rw [show d + e + v = d + v + e by ring, ih]

/-- The table. -/
theorem addMonths_table (y : Int) (m : Nat) (hm : m < 12) :
    addMonths m 1 0 = .ok ((daysBefore y m : Int) - if 2 ≤ m ∧ Leap y then 1 else 0) := by
  by_cases hl : Leap y
  · interval_cases m <;> simp [addMonths, rd, daysInMonth, daysBefore, monthLength, hl]
  · interval_cases m <;> simp [addMonths, rd, daysInMonth, daysBefore, monthLength, hl]

/-- C60: the day of the year of a date is how many days later than the first of January the date is. -/
theorem C60_year_day {d : Date} (h : d.Valid) :
    ∃ n : Nat, calcYearDay d.year d.month d.day = .ok (n : Int) ∧ Date.next^[n] (newYear d.year) = d := by
  obtain ⟨y, m, d⟩ := d
  obtain ⟨h1, h2, h3, h4⟩ := h
  simp only at h1 h2 h3 h4
  obtain ⟨k, rfl⟩ := Nat.exists_eq_add_of_le' h1
  obtain ⟨j, rfl⟩ := Nat.exists_eq_add_of_le' h3
  refine ⟨j + daysBefore y k, ?_, ?_⟩
  · rw [calcYearDay]
    simp only
    rw [show ((k + 1 : Nat) : Int) - 1 = k by push_cast; ring, Int.toNat_natCast, show ((j + 1 : Nat) : Int) - 1 = 0 + j by push_cast; ring,
      addMonths_add, addMonths_table y k (by omega)]
    simp only [Except.map, res_bind_ok, res_pure]
    congr 1
    have e : ((decide (((k + 1 : Nat) : Int) > 2) && isLeapYear y) = true) ↔ (2 ≤ k ∧ Leap y) := by
      rw [Bool.and_eq_true, decide_eq_true_eq, C60_leap]
      constructor
      · rintro ⟨a, b⟩; exact ⟨by omega, b⟩
      · rintro ⟨a, b⟩; exact ⟨by omega, b⟩
    by_cases hc : 2 ≤ k ∧ Leap y
    · rw [if_pos (e.mpr hc), if_pos hc]; push_cast; ring
    · rw [if_neg (fun x => hc (e.mp x)), if_neg hc]; push_cast; ring
  · rw [Function.iterate_add_apply, next_months k (by omega), next_days j 1 (by omega)]
    congr 1
    omega

/-- There is only one such number: days never repeat. -/
theorem C60_unique {d : Date} (h : d.Valid) {a b : Nat} (e : Date.next^[a] d = Date.next^[b] d) : a = b := by
  have key : ∀ (n : Nat) (d : Date), d.Valid → (Date.next^[n] d).Valid ∧
      (d.year * 12 + d.month) * 32 + d.day + n ≤ ((Date.next^[n] d).year * 12 + (Date.next^[n] d).month) * 32 + (Date.next^[n] d).day := by
    intro n
    induction n with
    | zero => intro d hd; exact ⟨hd, by simp⟩
    | succ n ih =>
      intro d hd
      rw [Function.iterate_succ_apply']
      obtain ⟨⟨v1, v2, v3, v4⟩, i⟩ := ih d hd
      generalize Date.next^[n] d = u at v1 v2 v3 v4 i
      have l := monthLength_pos u.year u.month
      rw [Date.next]
      split
      · exact ⟨⟨v1, v2, by simp only; omega, by simp only; omega⟩, by simp only; push_cast; omega⟩
      · split
        · have l2 := monthLength_pos u.year (u.month + 1)
          exact ⟨⟨by simp only; omega, by simp only; omega, by simp only; omega, by simp only; omega⟩, by simp only; push_cast; omega⟩
        · have l2 := monthLength_pos (u.year + 1) 1
          exact ⟨⟨by simp only; omega, by simp only; omega, by simp only; omega, by simp only; omega⟩, by simp only; push_cast; omega⟩
  rcases Nat.lt_trichotomy a b with hab | hab | hab
  · obtain ⟨c, rfl⟩ := Nat.exists_eq_add_of_lt hab
    rw [show a + c + 1 = (c + 1) + a by omega, Function.iterate_add_apply] at e
    have := (key (c + 1) _ (key a d h).1).2
    rw [← e] at this
    push_cast at this
    omega
  · exact hab
  · obtain ⟨c, rfl⟩ := Nat.exists_eq_add_of_lt hab
    rw [show b + c + 1 = (c + 1) + b by omega, Function.iterate_add_apply] at e
    have := (key (c + 1) _ (key b d h).1).2
    rw [e] at this
    push_cast at this
    omega

example : (⟨2024, 12, 31⟩ : Date).Valid ∧ calcYearDay 2024 12 31 = .ok 365 ∧ calcYearDay 1900 3 1 = .ok 59 ∧ calcYearDay 2000 3 1 = .ok 60 := by decide +kernel

/-- `bcd2bin` decodes two decimal digits. -/
theorem C60_bcd {hi lo : Nat} (h1 : hi ≤ 9) (h2 : lo ≤ 9) : bcd2bin (16 * hi + lo) = 10 * hi + lo := by
  unfold bcd2bin; omega

/-! ## C83: construction from `__DATE__` and `__TIME__` -/

/-- What may follow a number. -/
def Stops (rest : List Char) : Prop := rest = [] ∨ (∃ r, rest = ':' :: r) ∨ ∃ r, rest = ' ' :: r

theorem digit_dig {n : Nat} (h : n < 10) : digit (dig n) = some n := by interval_cases n <;> decide

theorem isSpace_dig {n : Nat} (h : n < 10) : isSpace (dig n) = false := by interval_cases n <;> decide

theorem scanDigits_stop {base w acc : Nat} {rest : List Char} (h : Stops rest) : scanDigits base w acc rest = (acc, rest) := by
  rcases h with rfl | ⟨r, rfl⟩ | ⟨r, rfl⟩
  · cases w <;> rfl
  · cases w <;> rfl
  · cases w <;> rfl

theorem scanDigits_dig {base w acc n : Nat} {rest : List Char} (h : n < 10) (hb : n < base) :
    scanDigits base (w + 1) acc (dig n :: rest) = scanDigits base w (acc * base + n) rest := by
  rw [scanDigits, digit_dig h]
  simp only [hb, if_true]

theorem scanNat_two {base w n : Nat} {rest : List Char} (hn : n < 100) (h1 : n / 10 < base) (h2 : n % 10 < base) (h : Stops rest ∨ w = 0) :
    scanNat base (w + 2) (two n ++ rest) = some (n / 10 * base + n % 10, rest) := by
  have e : scanDigits base (w + 2) 0 (two n ++ rest) = (n / 10 * base + n % 10, rest) := by
    show scanDigits base (w + 1 + 1) 0 (dig (n / 10) :: dig (n % 10) :: rest) = _
    rw [scanDigits_dig (by omega) h1, scanDigits_dig (by omega) h2, zero_mul, zero_add]
    rcases h with h | rfl
    · exact scanDigits_stop h
    · cases rest <;> rfl
  rw [scanNat, e]
  exact if_pos (by simp [two]; omega)

theorem dropWhile_dig {n : Nat} {rest : List Char} (h : n < 10) : (dig n :: rest).dropWhile isSpace = dig n :: rest := by
  rw [List.dropWhile_cons, isSpace_dig h]; simp

/-- `%i` reads two digits, except 08 and 09. -/
theorem scanI_two {n : Nat} {rest : List Char} (hn : n < 60) (h8 : n ≠ 8) (h9 : n ≠ 9) (h : Stops rest) : scanI (two n ++ rest) = some ((n : Int), rest) := by
  unfold scanI
  have e : (two n ++ rest).dropWhile isSpace = two n ++ rest := dropWhile_dig (by omega)
  rw [e]
  have hl : (two n ++ rest).length = rest.length + 2 := by simp [two]
  have a : n < 10 → scanNat 8 (two n ++ rest).length (two n ++ rest) = some (n, rest) := by
    intro h10
    rw [hl, scanNat_two (by omega) (by omega) (by omega) (.inl h)]
    congr 2
    omega
  have b : scanNat 10 (two n ++ rest).length (two n ++ rest) = some (n, rest) := by
    rw [hl, scanNat_two (by omega) (by omega) (by omega) (.inl h)]
    congr 2
    omega
  by_cases h10 : n < 10
  · have a := a h10
    have : (scanPrefixed (two n ++ rest)) = scanNat 8 (two n ++ rest).length (two n ++ rest) := by interval_cases n <;> first | rfl | omega
    rw [a] at this
    interval_cases n <;> first | omega | exact congrArg (Option.map fun x : Nat × List Char => ((x.1 : Int), x.2)) this
  · have : (scanPrefixed (two n ++ rest)) = scanNat 10 (two n ++ rest).length (two n ++ rest) := by interval_cases n <;> first | rfl | omega
    rw [b] at this
    interval_cases n <;> first | omega | exact congrArg (Option.map fun x : Nat × List Char => ((x.1 : Int), x.2)) this

/-- 08 and 09 read as 0, and the second digit is left over. -/
theorem scanI_octal {n : Nat} {rest : List Char} (hn : n = 8 ∨ n = 9) : scanI (two n ++ rest) = some (0, dig n :: rest) := by
  have hl : ∀ n, (two n ++ rest).length = rest.length + 2 := by intro n; simp [two]
  have e : scanNat 8 (two n ++ rest).length (two n ++ rest) = some (0, dig n :: rest) := by
    rw [hl, scanNat]
    have : scanDigits 8 (rest.length + 2) 0 (two n ++ rest) = (0, dig n :: rest) := by
      rcases hn with rfl | rfl <;> rfl
    rw [this]
    simp [two]
  rcases hn with rfl | rfl
  · exact congrArg (Option.map fun x : Nat × List Char => ((x.1 : Int), x.2)) e
  · exact congrArg (Option.map fun x : Nat × List Char => ((x.1 : Int), x.2)) e

theorem scanTime_text {h m s : Nat} (h1 : h < 24) (h2 : m < 60) (h3 : s < 60) (h8 : ∀ n ∈ [h, m, s], n ≠ 8 ∧ n ≠ 9) :
    scanTime (timeText h m s) = (some (h : Int), some (m : Int), some (s : Int)) := by
  simp only [List.mem_cons, List.not_mem_nil, or_false, forall_eq_or_imp, forall_eq] at h8
  have e1 : scanI (timeText h m s) = some ((h : Int), ':' :: (two m ++ (':' :: two s))) := by
    rw [show timeText h m s = two h ++ (':' :: (two m ++ (':' :: two s))) by simp [timeText]]
    exact scanI_two (by omega) h8.1.1 h8.1.2 (.inr (.inl ⟨_, rfl⟩))
  have e2 : scanI (two m ++ (':' :: two s)) = some ((m : Int), ':' :: two s) := scanI_two h2 h8.2.1.1 h8.2.1.2 (.inr (.inl ⟨_, rfl⟩))
  have e3 : scanI (two s) = some ((s : Int), []) := by
    have := scanI_two (rest := []) h3 h8.2.2.1 h8.2.2.2 (.inl rfl)
    rwa [List.append_nil] at this
  rw [scanTime, e1]
  simp only
  rw [e2]
  simp only
  rw [e3]
  rfl

theorem scanD_two {w n : Nat} {rest : List Char} (hn : n < 100) (h : Stops rest ∨ w = 0) :
    scanD (w + 2) (' ' :: (two n ++ rest)) = some ((n : Int), rest) := by
  have e : (' ' :: (two n ++ rest)).dropWhile isSpace = two n ++ rest := by
    rw [List.dropWhile_cons, if_pos (by decide)]
    exact dropWhile_dig (by omega)
  have b : scanNat 10 (w + 2) (two n ++ rest) = some (n, rest) := by
    rw [scanNat_two hn (by omega) (by omega) h]
    congr 2
    omega
  rw [scanD, e]
  have b' := congrArg (Option.map fun x : Nat × List Char => ((x.1 : Int), x.2)) b
  interval_cases n <;> exact b'

theorem scanD_one {n : Nat} {rest : List Char} (hn : n < 10) (h : Stops rest) : scanD 2 (' ' :: ' ' :: dig n :: rest) = some ((n : Int), rest) := by
  have e : (' ' :: ' ' :: dig n :: rest).dropWhile isSpace = dig n :: rest := by
    rw [List.dropWhile_cons, if_pos (by decide), List.dropWhile_cons, if_pos (by decide)]
    exact dropWhile_dig hn
  have b : scanNat 10 2 (dig n :: rest) = some (n, rest) := by
    have : scanDigits 10 2 0 (dig n :: rest) = (n, rest) := by
      rw [scanDigits_dig hn hn, scanDigits_stop h]; simp
    rw [scanNat, this]
    simp
  rw [scanD, e]
  have b' := congrArg (Option.map fun x : Nat × List Char => ((x.1 : Int), x.2)) b
  interval_cases n <;> exact b'

theorem scanD_four {n : Nat} (hn : n < 10000) : scanD 4 (' ' :: (two (n / 100) ++ two (n % 100))) = some ((n : Int), []) := by
  have e : (' ' :: (two (n / 100) ++ two (n % 100))).dropWhile isSpace = two (n / 100) ++ two (n % 100) := by
    rw [List.dropWhile_cons, if_pos (by decide)]
    exact dropWhile_dig (by omega)
  have b : scanNat 10 4 (two (n / 100) ++ two (n % 100)) = some (n, []) := by
    have : scanDigits 10 4 0 (two (n / 100) ++ two (n % 100)) = (n, []) := by
      show scanDigits 10 4 0 (dig (n / 100 / 10) :: dig (n / 100 % 10) :: dig (n % 100 / 10) :: dig (n % 100 % 10) :: []) = _
      rw [scanDigits_dig (by omega) (by omega), scanDigits_dig (by omega) (by omega), scanDigits_dig (by omega) (by omega),
        scanDigits_dig (by omega) (by omega), scanDigits]
      congr 1
      omega
    rw [scanNat, this]
    simp [two]
  rw [scanD, e]
  have b' := congrArg (Option.map fun x : Nat × List Char => ((x.1 : Int), x.2)) b
  have key : ∀ k, k < 10 → ∀ l : List Char, (match dig k :: l with
    | '-' :: s => (scanNat 10 (4 - 1) s).map fun (v, r) => (-(v : Int), r)
    | '+' :: s => (scanNat 10 (4 - 1) s).map fun (v, r) => ((v : Int), r)
    | s => (scanNat 10 4 s).map fun (v, r) => ((v : Int), r)) = (scanNat 10 4 (dig k :: l)).map fun (v, r) => ((v : Int), r) := by
    intro k hk l
    interval_cases k <;> rfl
  exact (key (n / 100 / 10) (by omega) _).trans b'

theorem scanDate_text {d : Date} (h : d.Valid) (hy : 0 ≤ d.year ∧ d.year < 10000) :
    scanDate (dateText d) = (some (monthName d.month), some (d.day : Int), some d.year) := by
  obtain ⟨h1, h2, h3, h4⟩ := h
  have hl := monthLength_pos d.year d.month
  obtain ⟨n, hn⟩ := Int.eq_ofNat_of_zero_le hy.1
  have e0 : dateText d = monthName d.month ++ (' ' :: ((if d.day < 10 then [' ', dig d.day] else two d.day) ++ (' ' :: (two (n / 100) ++ two (n % 100))))) := by
    rw [dateText, hn]; simp
  have e1 : ∀ rest, scanWord (monthName d.month ++ (' ' :: rest)) = some (monthName d.month, ' ' :: rest) := by
    intro rest
    generalize d.month = m at h1 h2
    interval_cases m <;> rfl
  have e2 : scanD 2 (' ' :: ((if d.day < 10 then [' ', dig d.day] else two d.day) ++ (' ' :: (two (n / 100) ++ two (n % 100))))) =
      some ((d.day : Int), ' ' :: (two (n / 100) ++ two (n % 100))) := by
    split
    · next hd => exact scanD_one hd (.inr (.inr ⟨_, rfl⟩))
    · exact scanD_two (w := 0) (by omega) (.inr rfl)
  rw [scanDate, e0, e1]
  simp only
  rw [e2]
  simp only
  rw [scanD_four (by omega)]
  simp [hn]

theorem monthOf_name {d : Date} (hd : d.Valid) : monthOf (monthName d.month) = .ok (d.month : Int) := by
  obtain ⟨a, b, -, -⟩ := hd
  generalize d.month = k at a b
  interval_cases k <;> decide +kernel

theorem inInt_small {k : Nat} (hk : k < 60) : inInt (k : Int) = .ok (k : Int) := by
  rw [inInt, if_pos (by omega)]

theorem fieldsOf_of {buff date time word : List Char} {day year month h m s n : Int} (h1 : scanDate date = (some word, some day, some year))
    (h2 : monthOf word = .ok month) (h3 : scanTime time = (some h, some m, some s)) (h4 : inInt h = .ok h) (h5 : inInt m = .ok m) (h6 : inInt s = .ok s)
    (h7 : calcYearDay year month day = .ok n) : fieldsOf buff date time =
    .ok { year := some (year - 1900), mon := some (month - 1), mday := some day, hour := some h, min := some m, sec := some s, yday := some n } := by
  unfold fieldsOf
  rw [h1, h3]
  simp only [Option.getD_some, h2, res_bind_ok, use, h4, h5, h6, h7, res_pure]

/-- C83 up to the call of `mktime`: from the date and time as the preprocessor writes them, the constructor sets year, month, day, hour, minute,
second and the day of the year. Missing: times in which hour, minute or second is 08 or 09 (`C83_octal_counterexample`,
`C83_second_counterexample`); and `mktime` is undefined (`C83_dst_counterexample`). -/
theorem C83_fields_partial {d : Date} {h m s : Nat} (buff : List Char) (hd : d.Valid) (hy : 0 ≤ d.year ∧ d.year < 10000) (h1 : h < 24) (h2 : m < 60) (h3 : s < 60)
    (h8 : ∀ n ∈ [h, m, s], n ≠ 8 ∧ n ≠ 9) :
    ∃ n : Nat, Date.next^[n] (newYear d.year) = d ∧ fieldsOf buff (dateText d) (timeText h m s) =
      .ok { year := some (d.year - 1900), mon := some ((d.month : Int) - 1), mday := some (d.day : Int), hour := some (h : Int), min := some (m : Int), sec := some (s : Int),
            yday := some (n : Int) } := by
  obtain ⟨n, e, e'⟩ := C60_year_day hd
  refine ⟨n, e', ?_⟩
  have hi := monthOf_name hd
  exact fieldsOf_of (scanDate_text hd hy) hi (scanTime_text h1 h2 h3 h8) (inInt_small (by omega)) (inInt_small h2) (inInt_small h3) e

example : fieldsOf [] "Feb 29 2024".toList "23:59:01".toList =
    .ok { year := some 124, mon := some 1, mday := some 29, hour := some 23, min := some 59, sec := some 1, yday := some 59 } ∧
    dateText ⟨2024, 2, 29⟩ = "Feb 29 2024".toList ∧ dateText ⟨2012, 1, 4⟩ = "Jan  4 2012".toList ∧ timeText 23 59 1 = "23:59:01".toList := by decide +kernel

/-- Whatever goes wrong is undefined behaviour. -/
theorem fieldsOf_error {buff date time : List Char} {e : Fault} (h : fieldsOf buff date time = .error e) : e = .ub := by
  have hu : ∀ v e, use v = .error e → e = .ub := by intro v e h; cases v <;> cases h; rfl
  have hi : ∀ v e, inInt v = .error e → e = .ub := by intro v e h; unfold inInt at h; split at h <;> cases h; rfl
  have hr : ∀ (m : List Int) i e, rd m i = .error e → e = .ub := by intro m i e h; unfold rd at h; split at h <;> cases h; rfl
  have ha : ∀ n i d e, addMonths n i d = .error e → e = .ub := by
    intro n
    induction n with
    | zero => intro i d e h; cases h
    | succ n ih =>
      intro i d e h
      rw [addMonths] at h
      cases hx : rd daysInMonth (i - 1) with
      | error f => rw [hx] at h; cases h; exact hr _ _ _ hx
      | ok v => rw [hx, res_bind_ok] at h; exact ih _ _ _ h
  have hc : ∀ y m d e, calcYearDay y m d = .error e → e = .ub := by
    intro y m d e h
    rw [calcYearDay] at h
    cases hx : addMonths (m - 1).toNat 1 (d - 1) with
    | error f => rw [hx] at h; cases h; exact ha _ _ _ _ hx
    | ok v => rw [hx] at h; cases h
  have hb : ∀ {α β : Type} (x : Res α) (f : α → Res β) e, (x >>= f) = .error e → x = .error e ∨ ∃ a, x = .ok a ∧ f a = .error e := by
    intro α β x f e h
    cases x with
    | error g => left; cases h; rfl
    | ok a => right; exact ⟨a, rfl, h⟩
  unfold fieldsOf at h
  simp only at h
  rcases hb _ _ _ h with h | ⟨_, -, h⟩
  · unfold monthOf at h
    split at h <;> cases h; rfl
  rcases hb _ _ _ h with h | ⟨_, -, h⟩
  · exact hu _ _ h
  rcases hb _ _ _ h with h | ⟨_, -, h⟩
  · exact hu _ _ h
  rcases hb _ _ _ h with h | ⟨_, -, h⟩
  · exact hu _ _ h
  rcases hb _ _ _ h with h | ⟨_, -, h⟩
  · exact hi _ _ h
  rcases hb _ _ _ h with h | ⟨_, -, h⟩
  · exact hu _ _ h
  rcases hb _ _ _ h with h | ⟨_, -, h⟩
  · exact hi _ _ h
  rcases hb _ _ _ h with h | ⟨_, -, h⟩
  · exact hu _ _ h
  rcases hb _ _ _ h with h | ⟨_, -, h⟩
  · exact hi _ _ h
  rcases hb _ _ _ h with h | ⟨_, -, h⟩
  · exact hc _ _ _ _ h
  · cases h

/-- C83 is false: whatever the date and the time, `mktime` is given a `tm` whose daylight saving flag was never set. -/
theorem C83_dst_counterexample (mktime : List Int → Int) (buff date time : List Char) : ofStrings mktime buff date time = .error .ub := by
  rw [ofStrings]
  cases h : fieldsOf buff date time with
  | error e => rw [fieldsOf_error h]; rfl
  | ok tm =>
    rw [res_bind_ok]
    have hd : tm.isdst = none := by
      unfold fieldsOf at h
      simp only at h
      obtain ⟨_, -, h⟩ := res_bind h
      obtain ⟨_, -, h⟩ := res_bind h
      obtain ⟨_, -, h⟩ := res_bind h
      obtain ⟨_, -, h⟩ := res_bind h
      obtain ⟨_, -, h⟩ := res_bind h
      obtain ⟨_, -, h⟩ := res_bind h
      obtain ⟨_, -, h⟩ := res_bind h
      obtain ⟨_, -, h⟩ := res_bind h
      obtain ⟨_, -, h⟩ := res_bind h
      obtain ⟨_, -, h⟩ := res_bind h
      cases h
      rfl
    rw [setTimestamps, hd]
    have : ∀ a b c d e f : Option Int, [a, b, c, d, e, f, none].mapM use = .error .ub := by
      intro a b c d e f
      cases a <;> cases b <;> cases c <;> cases d <;> cases e <;> cases f <;> rfl
    rw [this]
    rfl

/-- C83 is false between 8:00 and 10:00, even before that: `%i` takes 08 for an octal number, minutes and seconds are never read. -/
theorem C83_octal_counterexample (buff date rest : List Char) {h : Nat} (hh : h = 8 ∨ h = 9) : fieldsOf buff date (two h ++ rest) = .error .ub := by
  have e : scanTime (two h ++ rest) = (some 0, none, none) := by
    rw [scanTime, scanI_octal hh]
    rcases hh with rfl | rfl <;> rfl
  cases hf : fieldsOf buff date (two h ++ rest) with
  | error f => rw [fieldsOf_error hf]
  | ok tm =>
    exfalso
    unfold fieldsOf at hf
    simp only [e] at hf
    obtain ⟨_, -, hf⟩ := res_bind hf
    obtain ⟨_, -, hf⟩ := res_bind hf
    obtain ⟨_, -, hf⟩ := res_bind hf
    obtain ⟨_, -, hf⟩ := res_bind hf
    obtain ⟨_, -, hf⟩ := res_bind hf
    obtain ⟨_, h, -⟩ := res_bind hf
    cases h

/-- C83 is false for seconds: 08 is read as 0. -/
theorem C83_second_counterexample : (fieldsOf [] "Jan 14 2012".toList "23:59:08".toList).map Tm.sec = .ok (some 0) ∧
    timeText 23 59 8 = "23:59:08".toList := by decide +kernel

/-- The constructor with numbers sets everything `mktime` reads. -/
theorem C83_numbers (mktime : List Int → Int) (year month day hour min sec wday yday dst : Int) :
    setTimestamps mktime (fieldsOfInts year month day hour min sec wday yday dst) = .ok (mktime [sec, min, hour, day, month - 1, year - 1900, dst]) := rfl

/-! ## C84: construction from a timestamp -/

/-- C84 for times from the year 2000 on, with a 64-bit `long`. Missing: earlier times (`C84_epoch_counterexample`). -/
theorem C84_after_2000_partial (b : Build) {t : Int} (h1 : 946684800 ≤ t) (h2 : t < 2 ^ 63) : ofTimestamp b true t = .ok (t, t - 946684800) := by
  have e : (t - unixOffset) % 2 ^ 64 = t - unixOffset := Int.emod_eq_of_lt (by unfold unixOffset; omega) (by unfold unixOffset; omega)
  have e2 : Int.bmod (t - unixOffset) (2 ^ 64) = t - unixOffset := by unfold unixOffset; rw [Int.bmod_eq_of_le] <;> omega
  rw [ofTimestamp, if_pos rfl, e, decide_eq_true (by unfold unixOffset; omega), spnAssert_true, res_bind_ok, e2]
  rfl

/-- C84 in release builds. -/
theorem C84_release (wide : Bool) {t : Int} (h1 : -2 ^ 62 ≤ t) (h2 : t < 2 ^ 63) : ofTimestamp .release wide t = .ok (t, t - 946684800) := by
  have e2 : Int.bmod (t - unixOffset) (2 ^ 64) = t - unixOffset := by unfold unixOffset; rw [Int.bmod_eq_of_le] <;> omega
  rw [ofTimestamp, e2, if_neg (show ¬t - unixOffset < -2 ^ 63 by unfold unixOffset; omega)]
  cases wide <;> rfl

/-- C84 with a 32-bit `long`, for times before 2068-01-19. -/
theorem C84_narrow_partial (b : Build) {t : Int} (h1 : -2 ^ 62 ≤ t) (h2 : t ≤ 3094168447) : ofTimestamp b false t = .ok (t, t - 946684800) := by
  have e2 : Int.bmod (t - unixOffset) (2 ^ 64) = t - unixOffset := by unfold unixOffset; rw [Int.bmod_eq_of_le] <;> omega
  rw [ofTimestamp, if_neg (by simp), if_neg (by unfold unixOffset; omega), decide_eq_true (by unfold unixOffset; omega), spnAssert_true,
    res_bind_ok, e2]
  rfl

example : ofTimestamp .debug true 1700000000 = .ok (1700000000, 753315200) := by decide +kernel

/-- C84 is false: the default constructor, and every other time between 1970 and 2000, fails an assertion when `long` has 64 bits. -/
theorem C84_epoch_counterexample {t : Int} (h1 : 0 ≤ t) (h2 : t < 946684800) : ofTimestamp .debug true t = .error .assertFailed := by
  have e : (t - unixOffset) % 2 ^ 64 = t - unixOffset + 2 ^ 64 := by
    rw [← Int.add_emod_right, Int.emod_eq_of_lt] <;> unfold unixOffset <;> omega
  rw [ofTimestamp, if_pos rfl, e, decide_eq_false (by unfold unixOffset; omega)]
  rfl

/-- C84 is false from 2068 on when `long` has 32 bits. -/
theorem C84_2068_counterexample {t : Int} (h1 : 3094168447 < t) : ofTimestamp .debug false t = .error .assertFailed := by
  rw [ofTimestamp, if_neg (by simp), if_neg (by unfold unixOffset; omega), decide_eq_false (by unfold unixOffset; omega)]
  rfl

/-- Which times a debug build accepts with a 64-bit `long`: those from 2000 on, and those so early that the difference wraps around. -/
theorem C84_exact {t : Int} (h1 : -2 ^ 63 ≤ t) (h2 : t < 2 ^ 63) : (∃ r, ofTimestamp .debug true t = .ok r) ↔ 946684800 ≤ t ∨ t < -2 ^ 63 + 946684800 := by
  have key : (t - unixOffset) % 2 ^ 64 ≤ 2 ^ 63 - 1 ↔ 946684800 ≤ t ∨ t < -2 ^ 63 + 946684800 := by unfold unixOffset; omega
  rw [← key, ofTimestamp, if_pos rfl]
  by_cases h : (t - unixOffset) % 2 ^ 64 ≤ 2 ^ 63 - 1
  · rw [decide_eq_true h, spnAssert_true, res_bind_ok]
    exact ⟨fun _ => h, fun _ => ⟨_, rfl⟩⟩
  · rw [decide_eq_false h]
    refine ⟨?_, fun x => absurd x h⟩
    rintro ⟨r, hr⟩
    cases hr

/-- C84 with 32 bits for both `long` and `time_t`: right for the times from 2000 on, that is until 2038. Missing: earlier times
(`C84_time32_counterexample`). -/
theorem C84_time32_partial (b : Build) {t : Int} (h1 : 946684800 ≤ t) (h2 : t < 2 ^ 31) : ofTimestamp32 b t = .ok (t, t - 946684800) := by
  have e : (t - unixOffset) % 2 ^ 32 = t - unixOffset := Int.emod_eq_of_lt (by unfold unixOffset; omega) (by unfold unixOffset; omega)
  have e2 : Int.bmod (t - unixOffset) (2 ^ 32) = t - unixOffset := by unfold unixOffset; rw [Int.bmod_eq_of_le] <;> omega
  rw [ofTimestamp32, e, decide_eq_true (by unfold unixOffset; omega), spnAssert_true, res_bind_ok, e2]
  rfl

/-- C84 is false with 32 bits for both: of the times before 2000, a debug build refuses those from 1931-12-13 on; both builds take the earlier ones
for times between 2038 and 2068. -/
theorem C84_time32_counterexample (b : Build) {t : Int} (h1 : -2 ^ 31 ≤ t) (h2 : t < 946684800) :
    ofTimestamp32 b t = if -2 ^ 31 + 946684800 ≤ t then (if b = .debug then .error .assertFailed else .ok (t, t - 946684800))
      else .ok (t, t - 946684800 + 2 ^ 32) := by
  rw [ofTimestamp32]
  split
  · next h =>
    have e2 : Int.bmod (t - unixOffset) (2 ^ 32) = t - unixOffset := by unfold unixOffset; rw [Int.bmod_eq_of_le] <;> omega
    rw [decide_eq_false (by unfold unixOffset; omega), e2]
    cases b <;> rfl
  · next h =>
    have e2 : Int.bmod (t - unixOffset) (2 ^ 32) = t - unixOffset + 2 ^ 32 := by
      rw [← Int.add_bmod_right, Int.bmod_eq_of_le] <;> unfold unixOffset <;> omega
    rw [decide_eq_true (by unfold unixOffset; omega), spnAssert_true, res_bind_ok, e2]
    rfl

example : ofTimestamp32 .debug 1700000000 = .ok (1700000000, 753315200) ∧ ofTimestamp32 .debug 0 = .error .assertFailed ∧
    ofTimestamp32 .release 0 = .ok (0, -946684800) ∧ ofTimestamp32 .debug (-2 ^ 31) = .ok (-2 ^ 31, 1200798848) := by decide +kernel

end Spine
