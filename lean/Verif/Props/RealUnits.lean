import Verif.Model.Compound
import Verif.Props.Compound
import Verif.Proofs.Units
/-!
# C91-C93: real-valued units
-/

namespace Spine

open RUnit F32

/-- A bound of the rounding error that also covers small numbers. -/
theorem rnd_err_le {q B : Rat} (hq : |q| ≤ B) (hB : 1 ≤ B) : |rnd q - q| ≤ B / 2 ^ 24 := by
  by_cases h : pow2 (-126) ≤ |q|
  · refine (rnd_err h).trans ?_
    exact div_le_div_of_nonneg_right hq (by norm_num)
  · push Not at h
    have e : rnd (pow2 (-126)) = pow2 (-126) := by
      have := rnd_exact (m := 1) (e := -126) (by norm_num) (by norm_num)
      simpa using this
    obtain ⟨h1, h2⟩ := abs_lt.mp h
    have l1 : rnd q ≤ pow2 (-126) := e ▸ rnd_mono h2.le
    have l2 : -pow2 (-126) ≤ rnd q := by
      have := rnd_mono h1.le
      rwa [rnd_neg, e] at this
    have l3 : pow2 (-126) ≤ 1 / 2 ^ 26 := by rw [pow2_eq]; norm_num
    have l4 : (1 : Rat) / 2 ^ 24 ≤ B / 2 ^ 24 := div_le_div_of_nonneg_right hB (by norm_num)
    rw [abs_le]
    constructor <;> linarith

/-! ## C91: real and kernel times -/

/-- C91: `to_kernel_time` gives the least whole number of units that is not less than the time, for all times of at most 2^62 units. Missing: larger times
(`C91_range_counterexample`). -/
theorem C91_ceil_partial {t : Fl} (hf : t.fin = true) (hb : |t.val| ≤ 2 ^ 62) : ∃ r : Int, toKernelTime t = .ok r ∧ t.val ≤ r ∧ (r : Rat) < t.val + 1 := by
  cases t with
  | nan => cases hf
  | inf s => cases hf
  | num s m =>
    cases s with
    | true =>
      simp only [Fl.val, if_true, abs_neg] at hb
      have hb' := abs_le.mp hb
      have f1 : ⌊m⌋ ≤ 2 ^ 62 := by exact_mod_cast (Int.floor_le m).trans hb'.2
      have f2 : -2 ^ 62 ≤ ⌊m⌋ := Int.le_floor.mpr (by push_cast; exact hb'.1)
      refine ⟨-⌊m⌋, ?_, ?_, ?_⟩
      · rw [toKernelTime, ceil, toTime]
        simp only [if_true, Int.floor_intCast]
        exact i64_ok ⟨by omega, by omega⟩
      · simp only [Fl.val, if_true]
        push_cast
        have := Int.floor_le m
        linarith
      · simp only [Fl.val, if_true]
        push_cast
        have := Int.lt_floor_add_one m
        linarith
    | false =>
      simp only [Fl.val, Bool.false_eq_true, if_false] at hb
      have hb' := abs_le.mp hb
      have f1 : ⌈m⌉ ≤ 2 ^ 62 := Int.ceil_le.mpr (by push_cast; exact hb'.2)
      have f2 : -2 ^ 62 ≤ ⌈m⌉ := by exact_mod_cast hb'.1.trans (Int.le_ceil m)
      refine ⟨⌈m⌉, ?_, ?_, ?_⟩
      · rw [toKernelTime, ceil, toTime]
        simp only [Bool.false_eq_true, if_false, Int.floor_intCast]
        exact i64_ok ⟨by omega, by omega⟩
      · simp only [Fl.val, Bool.false_eq_true, if_false]
        exact Int.le_ceil m
      · simp only [Fl.val, Bool.false_eq_true, if_false]
        exact Int.ceil_lt_add_one m

/-- C91: up to 2^24 units, a kernel time survives the way to a real time and back. -/
theorem C91_back_partial {k : Int} (h : |k| ≤ 2 ^ 24) : (toRealTime k).val = k ∧ toKernelTime (toRealTime k) = .ok k := by
  have e := rnd_int h
  have hk : |(k : Rat)| ≤ 2 ^ 24 := by exact_mod_cast h
  obtain ⟨h1, h2⟩ := Fl.ofRat_val (q := (k : Rat)) (by rw [e]; refine hk.trans_lt ?_; rw [pow2_eq]; norm_num)
  rw [e] at h2
  refine ⟨h2, ?_⟩
  obtain ⟨r, er, l1, l2⟩ := C91_ceil_partial (t := toRealTime k) h1 (by rw [toRealTime, h2]; refine hk.trans (by norm_num))
  rw [toRealTime, h2] at l1 l2
  have m1 : k ≤ r := by exact_mod_cast l1
  have m2 : r < k + 1 := by exact_mod_cast l2
  rw [er]
  congr 1
  omega

example : toKernelTime (Fl.ofRat (3 / 2)) = .ok 2 ∧ toKernelTime (Fl.ofRat (-3 / 2)) = .ok (-1) ∧ toKernelTime (Fl.ofRat (1 / 10)) = .ok 1 := by decide +kernel

/-- C91 is false beyond: 2^24 + 1 ms come back as 2^24, and times of 2^63 and more, infinite ones and NaN are undefined. -/
theorem C91_range_counterexample : toKernelTime (toRealTime 16777217) = .ok 16777216 ∧ toKernelTime (Fl.ofRat (2 ^ 63)) = .error .ub ∧
    (∀ s, toKernelTime (.inf s) = .error .ub) ∧ toKernelTime .nan = .error .ub := by
  refine ⟨by decide +kernel, by decide +kernel, fun s => rfl, rfl⟩

/-! ## C92: equality -/

theorem fabs_val {x : Fl} (hf : x.fin = true) (ho : x.Ok) : (fabs x : Fl).fin = true ∧ (fabs x : Fl).val = |x.val| ∧ (fabs x : Fl).Ok := by
  have hz : (fzero : Fl).val = 0 ∧ (fzero : Fl).fin = true := by decide +kernel
  unfold fabs
  split
  · next h =>
    have hneg : x.val < 0 := by
      have := (Fl.lt_iff hf hz.2).mp h
      rwa [hz.1] at this
    have hr : rnd ((fzero : Fl).val - x.val) = -x.val := by rw [hz.1, zero_sub, rnd_neg, ho.rnd_val]
    obtain ⟨h1, h2⟩ := Fl.sub_val hz.2 hf (by rw [hr, abs_neg]; exact ho.val_lt)
    refine ⟨h1, ?_, Fl.sub_ok _ _⟩
    show (Fl.sub fzero x).val = _
    rw [h2, hr, abs_of_neg hneg]
  · next h =>
    have hpos : ¬ x.val < 0 := by
      intro hc
      apply h
      exact (Fl.lt_iff hf hz.2).mpr (by rwa [hz.1])
    exact ⟨hf, (abs_of_nonneg (not_lt.mp hpos)).symm, ho⟩

theorem fmax_val {x y : Fl} (hx : x.fin = true) (hy : y.fin = true) (hxo : x.Ok) (hyo : y.Ok) :
    (fmax x y : Fl).fin = true ∧ (fmax x y : Fl).val = max x.val y.val ∧ (fmax x y : Fl).Ok := by
  unfold fmax
  split
  · next h => exact ⟨hy, (max_eq_right ((Fl.lt_iff hx hy).mp h).le).symm, hyo⟩
  · next h =>
    refine ⟨hx, (max_eq_left (not_lt.mp fun hc => h ((Fl.lt_iff hx hy).mpr hc))).symm, hxo⟩

/-- Equality of real units of the same magnitude, in terms of the numbers, as long as the difference does not overflow. -/
theorem approxEq_iff {a b : Fl} (ha : a.fin = true) (hb : b.fin = true) (hao : a.Ok) (hbo : b.Ok) (hd : |rnd (a.val - b.val)| < pow2 128) :
    approxEq a b = true ↔ |rnd (a.val - b.val)| ≤ rnd (1 / 2 ^ 23 * max |a.val| |b.val|) := by
  obtain ⟨d1, d2⟩ := Fl.sub_val ha hb hd
  obtain ⟨f1, f2, f3⟩ := fabs_val d1 (Fl.sub_ok a b)
  obtain ⟨a1, a2, a3⟩ := fabs_val ha hao
  obtain ⟨b1, b2, b3⟩ := fabs_val hb hbo
  obtain ⟨m1, m2, m3⟩ := fmax_val a1 b1 a3 b3
  have he : (Arith.ofRat (1 / 2 ^ 23) : Fl).fin = true ∧ (Arith.ofRat (1 / 2 ^ 23) : Fl).val = 1 / 2 ^ 23 := by decide +kernel
  have heo : (Arith.ofRat (1 / 2 ^ 23) : Fl).Ok := Fl.ofRat_ok _
  have hm : 0 ≤ max |a.val| |b.val| := le_max_of_le_left (abs_nonneg _)
  have hmb : |rnd (1 / 2 ^ 23 * max |a.val| |b.val|)| < pow2 128 := by
    have h0 : 0 ≤ 1 / 2 ^ 23 * max |a.val| |b.val| := by positivity
    rw [abs_of_nonneg (rnd_nonneg h0)]
    have hle : 1 / 2 ^ 23 * max |a.val| |b.val| ≤ max |a.val| |b.val| := by nlinarith
    refine (rnd_mono hle).trans_lt ?_
    have e : rnd (max |a.val| |b.val|) = max |a.val| |b.val| := by
      have := m3.rnd_val
      rwa [m2, a2, b2] at this
    rw [e]
    exact max_lt hao.val_lt hbo.val_lt
  have hmul := Fl.mul_val (x := Arith.ofRat (1 / 2 ^ 23)) (y := fmax (fabs a) (fabs b)) he.1 m1 heo m3 (by rw [he.2, m2, a2, b2]; exact hmb)
  rw [he.2, m2, a2, b2] at hmul
  rw [approxEq]
  show Fl.le (fabs (Fl.sub a b)) (Fl.mul (Arith.ofRat (1 / 2 ^ 23)) (fmax (fabs a) (fabs b))) = true ↔ _
  rw [Fl.le_iff f1 hmul.1, f2, d2, hmul.2]

/-- C92: finite times equal themselves, and equality is symmetric. -/
theorem C92_equality_partial {a b : Fl} (ha : a.fin = true) (hb : b.fin = true) (hao : a.Ok) (hbo : b.Ok) (hd : |rnd (a.val - b.val)| < pow2 128) :
    approxEq a a = true ∧ approxEq a b = approxEq b a := by
  constructor
  · rw [approxEq_iff ha ha hao hao (by rw [sub_self, Fl.rnd_zero, abs_zero]; exact pow2_pos _), sub_self, Fl.rnd_zero, abs_zero]
    exact rnd_nonneg (by positivity)
  · have hd' : |rnd (b.val - a.val)| < pow2 128 := by
      rw [← neg_sub, rnd_neg, abs_neg]
      exact hd
    rw [Bool.eq_iff_iff, approxEq_iff ha hb hao hbo hd, approxEq_iff hb ha hbo hao hd', max_comm, ← neg_sub b.val a.val, rnd_neg, abs_neg]

/-- C92: equal times differ by at most the fraction 2^-22 of the larger, in exact arithmetic by at most 2^-23. -/
theorem C92_close {a b : Rat} : approxEq a b = true ↔ |a - b| ≤ max |a| |b| / 2 ^ 23 := by
  have hf : ∀ x : Rat, fabs x = |x| := by
    intro x
    show (if decide (x < 0) = true then 0 - x else x) = |x|
    by_cases hx : x < 0
    · rw [if_pos (decide_eq_true hx), abs_of_neg hx, zero_sub]
    · rw [if_neg (by rwa [decide_eq_true_iff]), abs_of_nonneg (not_lt.mp hx)]
  have hm : ∀ x y : Rat, fmax x y = max x y := by
    intro x y
    show (if decide (x < y) = true then y else x) = max x y
    by_cases hx : x < y
    · rw [if_pos (decide_eq_true hx), max_eq_right hx.le]
    · rw [if_neg (by rwa [decide_eq_true_iff]), max_eq_left (not_lt.mp hx)]
  rw [approxEq]
  simp only [hf, hm, Arith.le, Arith.sub, Arith.mul, Arith.ofRat]
  rw [decide_eq_true_iff, div_eq_mul_one_div (max _ _), mul_comm]

example : eq (1 : Rat) (1 / 1000) 5 5000 = true := by decide +kernel

/-- C89: `==` of compound units of the same magnitudes (or with the same ratio of magnitudes) holds iff the quantities differ by at most the fraction 2^-23 of the larger,
in exact arithmetic; it holds for equal quantities. Missing: other magnitudes (`C89_magnitude_counterexample`). -/
theorem C89_equal_partial {a b : Compound Rat} {mn md on od qa qb : Rat} (h1 : 0 < mn) (h2 : 0 < md) (h4 : 0 < od) (hr : mn / md = on / od)
    (ha : Quantity mn md a qa) (hb : Quantity on od b qb) :
    Compound.eq a b = .ok (decide (|qa - qb| ≤ max |qa| |qb| / 2 ^ 23)) ∧ (qa = qb → Compound.eq a b = .ok true) ∧
      Compound.ne a b = .ok (decide (max |qa| |qb| / 2 ^ 23 < |qa - qb|)) := by
  obtain ⟨a0, ea⟩ := ha
  obtain ⟨b0, eb⟩ := hb
  have xa : a.num / a.den = qa * (md / mn) := by field_simp; linear_combination -ea
  have hon : 0 < on := by
    have : 0 < on / od := hr ▸ div_pos h1 h2
    exact (div_pos_iff_of_pos_right h4).mp this
  have xb : b.num / b.den = qb * (md / mn) := by
    have : md / mn = od / on := by
      rw [div_eq_div_iff h1.ne' hon.ne']
      rw [div_eq_div_iff h2.ne' h4.ne'] at hr
      linear_combination -hr
    rw [this]
    field_simp
    linear_combination -eb
  have hp : 0 < md / mn := div_pos h2 h1
  have key : Compound.eq a b = .ok (decide (|qa - qb| ≤ max |qa| |qb| / 2 ^ 23)) := by
    simp only [Compound.eq, raw_rat.2 a0, raw_rat.2 b0, res_bind_ok, res_pure, xa, xb]
    congr 1
    rw [Bool.eq_iff_iff, C92_close, decide_eq_true_iff, ← sub_mul, abs_mul, abs_mul, abs_mul, ← max_mul_of_nonneg _ _ (abs_nonneg _), abs_of_pos hp, mul_div_right_comm]
    exact ⟨fun h => le_of_mul_le_mul_right h hp, fun h => mul_le_mul_of_nonneg_right h hp.le⟩
  refine ⟨key, fun h => ?_, ?_⟩
  · rw [key, h, sub_self, abs_zero, decide_eq_true]
    positivity
  · simp only [Compound.ne, key, res_bind_ok, res_pure]
    congr 1
    rw [← decide_not, decide_eq_decide]
    exact not_le

example : Compound.eq (⟨10, 4⟩ : Compound Rat) ⟨5, 2⟩ = .ok true ∧ Compound.eq (⟨10, 4⟩ : Compound Rat) ⟨10, 5⟩ = .ok false ∧ Quantity 1 1 ⟨10, 4⟩ (5 / 2) := by
  exact ⟨by decide +kernel, by decide +kernel, by norm_num, by norm_num⟩

/-- C92 is false: two times can be equal although one is less than the other, and equality is not transitive. -/
theorem C92_order_counterexample : ∃ a b c : Fl, approxEq a b = true ∧ approxEq b c = true ∧ approxEq a c = false ∧ Fl.lt a b = true ∧ Fl.lt b c = true :=
  ⟨Fl.ofRat 1, Fl.ofRat (1 + 1 / 2 ^ 23), Fl.ofRat (1 + 2 / 2 ^ 23), by decide +kernel⟩

/-- C92 is false for infinite times and NaN: they do not equal themselves. -/
theorem C92_infinite_counterexample (s : Bool) : approxEq (.inf s : Fl) (.inf s) = false ∧ approxEq (.nan : Fl) .nan = false := by cases s <;> decide +kernel

/-- C92 is false for units of different magnitudes, as each side rounds another ratio: 3 days equal 259,200,000 ms, but 259,200,000 ms do not equal 3
days. -/
theorem C92_magnitude_counterexample : eq (Fl.ofRat 86400) (Fl.ofRat (1 / 1000)) (Fl.ofRat 3) (Fl.ofRat 259200000) = true ∧
    eq (Fl.ofRat (1 / 1000)) (Fl.ofRat 86400) (Fl.ofRat 259200000) (Fl.ofRat 3) = false := by decide +kernel

/-! ## C93: temperatures -/

/-- C93: in exact arithmetic the conversions add and subtract 273.15 and undo one another. -/
theorem C93_exact (t : Rat) : toKelvin t = t + 27315 / 100 ∧ toCelsius t = t - 27315 / 100 ∧ toKelvin (toCelsius t) = t ∧ toCelsius (toKelvin t) = t := by
  simp [toKelvin, toCelsius, Arith.add, Arith.sub, Arith.ofRat]

/-- C93 with `float`: forth and back, the error is at most the fraction 2^-22 of the largest number involved. -/
theorem C93_ieee {t : Fl} (hf : t.fin = true) (hb : |t.val| ≤ 2 ^ 100) :
    |(toKelvin (toCelsius t)).val - t.val| ≤ (|t.val| + 274) / 2 ^ 22 ∧ |(toCelsius (toKelvin t)).val - t.val| ≤ (|t.val| + 274) / 2 ^ 22 := by
  have hk : (Arith.ofRat (27315 / 100) : Fl).fin = true ∧ 0 ≤ (Arith.ofRat (27315 / 100) : Fl).val ∧ (Arith.ofRat (27315 / 100) : Fl).val ≤ 274 := by decide +kernel
  obtain ⟨kf, k0, k1⟩ := hk
  have big : ∀ {q : Rat}, |q| ≤ 2 ^ 102 → |rnd q| < pow2 128 := by
    intro q hq
    have := rnd_err_le hq (by norm_num)
    have h1 := abs_sub_abs_le_abs_sub (rnd q) q
    have h3 : pow2 128 = 2 ^ 128 := by rw [pow2_eq]; norm_num
    rw [h3]
    refine lt_of_le_of_lt (by linarith : |rnd q| ≤ 2 ^ 102 + 2 ^ 102 / 2 ^ 24) (by norm_num)
  have t0 := abs_nonneg t.val
  have tt := abs_le.mp (le_refl |t.val|)
  generalize hT : |t.val| = T at *
  unfold toKelvin toCelsius
  generalize (Arith.ofRat (27315 / 100) : Fl) = K at *
  have B1 : 1 ≤ T + 274 := by linarith
  have go : ∀ c d : Rat, |c - d| ≤ (T + 274) / 2 ^ 24 → (|d| ≤ T + 274) → |c| ≤ 2 * (T + 274) := by
    intro c d h1 h2
    have := abs_sub_abs_le_abs_sub c d
    have : (T + 274) / 2 ^ 24 ≤ T + 274 := by rw [div_le_iff₀ (by norm_num)]; linarith
    linarith
  constructor
  · have hq : |t.val - K.val| ≤ T + 274 := by rw [abs_le]; constructor <;> linarith
    obtain ⟨s1, s2⟩ := Fl.sub_val hf kf (big (hq.trans (by linarith)))
    have e1 := rnd_err_le hq B1
    obtain ⟨l1, l2⟩ := abs_le.mp e1
    show |(Fl.add (Fl.sub t K) K).val - t.val| ≤ _
    have hq2 : |(Fl.sub t K).val + K.val| ≤ 2 * (T + 274) := by
      rw [s2]
      refine go _ t.val ?_ (by linarith)
      rw [abs_le]
      constructor <;> linarith
    obtain ⟨a1, a2⟩ := Fl.add_val s1 kf (big (hq2.trans (by linarith)))
    rw [a2]
    have e2 := rnd_err_le hq2 (by linarith)
    obtain ⟨m1, m2⟩ := abs_le.mp e2
    rw [s2] at m1 m2 ⊢
    rw [abs_le]
    constructor <;> linarith
  · have hq : |t.val + K.val| ≤ T + 274 := by rw [abs_le]; constructor <;> linarith
    obtain ⟨s1, s2⟩ := Fl.add_val hf kf (big (hq.trans (by linarith)))
    have e1 := rnd_err_le hq B1
    obtain ⟨l1, l2⟩ := abs_le.mp e1
    show |(Fl.sub (Fl.add t K) K).val - t.val| ≤ _
    have hq2 : |(Fl.add t K).val - K.val| ≤ 2 * (T + 274) := by
      rw [s2]
      refine go _ t.val ?_ (by linarith)
      rw [abs_le]
      constructor <;> linarith
    obtain ⟨a1, a2⟩ := Fl.sub_val s1 kf (big (hq2.trans (by linarith)))
    rw [a2]
    have e2 := rnd_err_le hq2 (by linarith)
    obtain ⟨m1, m2⟩ := abs_le.mp e2
    rw [s2] at m1 m2 ⊢
    rw [abs_le]
    constructor <;> linarith

/-- C93 is false to the last digit: 0.1 K come back as another number. -/
theorem C93_exact_counterexample : toKelvin (toCelsius (Fl.ofRat (1 / 10))) ≠ Fl.ofRat (1 / 10) := by decide +kernel

end Spine
