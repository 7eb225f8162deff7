import Verif.Proofs.Units
/-!
# Properties C31 and C32: kernel time

A `k_time` is a 64 bit integer, but every operator taking another `k_time` sends that operand through a `float`,
even if both have the same unit.
-/

namespace Spine

open F32

/-! ## C31 -/

/-- C31 (partial). If the right operand is at most 2^24 in absolute value (4.6 hours in ms), sums, differences and
comparisons of two times of the same unit are those of the integers.
Missing: larger right operands (`C31_counterexample`). -/
theorem C31_exact_partial (m : Mag) {a b : Int} (hb : |b| ≤ 2 ^ 24) :
    (InI64 (a + b) → KTime.add m m a b = .ok (a + b)) ∧
    (InI64 (a - b) → KTime.sub m m a b = .ok (a - b)) ∧
    KTime.eq m m a b = .ok (decide (a = b)) ∧ KTime.ne m m a b = .ok (decide (a ≠ b)) ∧
    KTime.lt m m a b = .ok (decide (a < b)) ∧ KTime.le m m a b = .ok (decide (a ≤ b)) ∧
    KTime.gt m m a b = .ok (decide (a > b)) ∧ KTime.ge m m a b = .ok (decide (a ≥ b)) := by
  have h := fromOther_small m hb
  refine ⟨fun hi => ?_, fun hi => ?_, ?_, ?_, ?_, ?_, ?_, ?_⟩
  · simp only [KTime.add, h, res_bind_ok, i64_ok hi]
  · simp only [KTime.sub, h, res_bind_ok, i64_ok hi]
  all_goals simp [KTime.eq, KTime.ne, KTime.lt, KTime.le, KTime.gt, KTime.ge, h]

/-- C31 (partial), any size: sums and differences are off by at most one part in 2^24 of the right operand (rounded
down), and a comparison can be wrong only if the operands differ by no more than that. -/
theorem C31_error_partial (m : Mag) {a b : Int} (ha : |a| ≤ 2 ^ 61) (hb : |b| ≤ 2 ^ 61) :
    (∃ c, KTime.add m m a b = .ok c ∧ |c - (a + b)| ≤ |b| / 2 ^ 24) ∧
    (∃ c, KTime.sub m m a b = .ok c ∧ |c - (a - b)| ≤ |b| / 2 ^ 24) ∧
    (|a - b| > |b| / 2 ^ 24 →
      KTime.eq m m a b = .ok (decide (a = b)) ∧ KTime.ne m m a b = .ok (decide (a ≠ b)) ∧
      KTime.lt m m a b = .ok (decide (a < b)) ∧ KTime.le m m a b = .ok (decide (a ≤ b)) ∧
      KTime.gt m m a b = .ok (decide (a > b)) ∧ KTime.ge m m a b = .ok (decide (a ≥ b))) := by
  have hb' : |b| ≤ 2 ^ 62 := hb.trans (by norm_num)
  have h := fromOther_mid m hb'
  have he : |near b - b| ≤ |b| / 2 ^ 24 := by
    rw [Int.le_ediv_iff_mul_le (by norm_num)]; exact near_err b
  have hd : |b| / 2 ^ 24 ≤ 2 ^ 37 := by
    have : |b| / 2 ^ 24 ≤ 2 ^ 61 / 2 ^ 24 := Int.ediv_le_ediv (by norm_num) hb
    exact this.trans (by norm_num)
  generalize |b| / 2 ^ 24 = d at *
  have hn : |near b| ≤ 2 ^ 61 + 2 ^ 37 := by rw [abs_le] at *; constructor <;> omega
  refine ⟨⟨a + near b, ?_, ?_⟩, ⟨a - near b, ?_, ?_⟩, fun hab => ?_⟩
  · simp only [KTime.add, h, res_bind_ok]
    apply i64_ok; rw [abs_le] at *; unfold InI64; omega
  · rw [show a + near b - (a + b) = near b - b by ring]; exact he
  · simp only [KTime.sub, h, res_bind_ok]
    apply i64_ok; rw [abs_le] at *; unfold InI64; omega
  · rw [show a - near b - (a - b) = -(near b - b) by ring, abs_neg]; exact he
  · have hlt : (a < near b ↔ a < b) ∧ (a > near b ↔ a > b) := by
      rw [abs_le] at he
      rcases le_or_gt 0 (a - b) with h1 | h1
      · rw [abs_of_nonneg h1] at hab; omega
      · rw [abs_of_neg h1] at hab; omega
    simp only [KTime.eq, KTime.ne, KTime.lt, KTime.le, KTime.gt, KTime.ge, h, res_bind_ok, res_pure]
    refine ⟨?_, ?_, ?_, ?_, ?_, ?_⟩ <;> congr 1 <;> (try rw [← decide_not]) <;> rw [decide_eq_decide] <;> omega

/-- C31, operators without a second time: exact for every result that fits, and division by zero is reported. -/
theorem C31_scalar {a k : Int} :
    (InI64 (-a) → KTime.neg a = .ok (-a)) ∧ (InI64 (a * k) → KTime.scale a k = .ok (a * k)) ∧
    (k ≠ 0 → InI64 (a.tdiv k) → KTime.divide a k = .ok (a.tdiv k)) ∧ KTime.divide a 0 = .error .exception := by
  refine ⟨fun h => i64_ok h, fun h => i64_ok h, fun h0 h => ?_, by simp [KTime.divide]⟩
  rw [KTime.divide, if_neg h0, i64_ok h]

/-- C31 is false above 2^24: a sum and a difference are wrong, a time does not equal itself, equality is not
symmetric, and a time is less than or equal to a smaller one. -/
theorem C31_counterexample (m : Mag) :
    KTime.add m m 0 16777217 = .ok 16777216 ∧ KTime.sub m m 16777217 16777217 = .ok 1 ∧
    KTime.eq m m 16777217 16777217 = .ok false ∧
    KTime.eq m m 16777216 16777217 = .ok true ∧ KTime.eq m m 16777217 16777216 = .ok false ∧
    KTime.le m m 16777220 16777219 = .ok true := by
  have h1 : KTime.fromOther m m 16777217 = .ok 16777216 := by rw [fromOther_same]; decide +kernel
  have h2 : KTime.fromOther m m 16777216 = .ok 16777216 := by rw [fromOther_same]; decide +kernel
  have h3 : KTime.fromOther m m 16777219 = .ok 16777220 := by rw [fromOther_same]; decide +kernel
  simp only [KTime.add, KTime.sub, KTime.eq, KTime.le, h1, h2, h3, res_bind_ok, res_pure]
  decide +kernel

/-- C31 is false at the top of the range: converting the largest times to `float` and back is undefined behaviour. -/
theorem C31_overflow_counterexample (m : Mag) : KTime.eq m m 0 (2 ^ 63 - 1) = .error .ub := by
  have h1 : KTime.fromOther m m (2 ^ 63 - 1) = .error .ub := by rw [fromOther_same]; decide +kernel
  simp only [KTime.eq, h1]; rfl

/-- Non-vacuity: 3 hours and 20 minutes, in ms. -/
example : KTime.add .milli .milli 10800000 1200000 = .ok 12000000 ∧ KTime.lt .milli .milli 10800000 1200000 = .ok false :=
  let h := C31_exact_partial .milli (a := 10800000) (b := 1200000) (by norm_num)
  ⟨h.1 (by unfold InI64; norm_num), h.2.2.2.2.1⟩

/-- Non-vacuity of the error bound: after 100 days, in ms. -/
example : ∃ c, KTime.sub .milli .milli 8640000000 8639999000 = .ok c ∧ |c - 1000| ≤ 514 := by
  obtain ⟨c, h1, h2⟩ := (C31_error_partial .milli (a := 8640000000) (b := 8639999000) (by norm_num) (by norm_num)).2.1
  exact ⟨c, h1, by norm_num at h2 ⊢; exact h2⟩

/-! ## C32 -/

/-- C32 (partial). As long as neither the old nor the new value exceeds 3,000,000, a conversion gives an integer nearest
to the exact value; so it is exact if the exact value is an integer.
Missing: larger values (`C32_counterexample`) and the direction of ties (`C32_tie_counterexample`). -/
theorem C32_nearest_partial (src dst : Mag) {v : Int} (hv : |v| ≤ 3000000) (hk : src.per dst * |(v : Rat)| ≤ 3000000) :
    ∃ r, KTime.convert src dst v = .ok r ∧ |(r : Rat) - src.per dst * v| ≤ 1 / 2 := by
  have herr := product_err_small src dst (v := v) (hv.trans (by norm_num))
  have hw := per_whole src dst
  have hpos := per_pos src dst
  unfold KTime.convert KTime.fromOther
  generalize rnd (KTime.ratio src dst * rnd v) = z at *
  generalize src.per dst = k at *
  have hra := roundAway_err z
  generalize roundAway z = N at *
  have hvq : |(v : Rat)| ≤ 3000000 := by exact_mod_cast hv
  have hQ : (0 : Rat) < k.den := by exact_mod_cast k.den_pos
  have hP0 : (0 : Rat) < k.num := by exact_mod_cast Rat.num_pos.mpr hpos
  have hkk : k * k.den = k.num := Rat.mul_den_eq_num k
  have hP : (k.num : Rat) * |(v : Rat)| ≤ 3000000 := by
    rcases hw with h | h
    · rw [h]; simpa using hvq
    · rw [h] at hkk; push_cast at hkk; rw [mul_one] at hkk; rw [← hkk]; exact hk
  -- the error is less than half the distance between the fractions that can occur
  have hz : |z - k * v| * (2 * k.den) < 1 := by
    have e : k * |(v : Rat)| * (27 / 10) / 2 ^ 24 * (2 * k.den) = (k * k.den) * |(v : Rat)| * (27 / 5) / 2 ^ 24 := by ring
    have : |z - k * v| * (2 * k.den) ≤ k * |(v : Rat)| * (27 / 10) / 2 ^ 24 * (2 * k.den) :=
      mul_le_mul_of_nonneg_right herr (by linarith)
    rw [e, hkk] at this
    linarith
  have hN : |(N : Rat) - k * v| ≤ 1 / 2 := by
    by_contra hc
    push Not at hc
    have h1 : ((k.den : Int) : Rat) < |((2 * k.den * N - 2 * k.num * v : Int) : Rat)| := by
      have e : ((2 * k.den * N - 2 * k.num * v : Int) : Rat) = (2 * k.den) * (N - k * v) := by
        push_cast; rw [← hkk]; ring
      rw [e, abs_mul, abs_of_pos (by linarith)]
      push_cast; nlinarith
    have h2 : (k.den : Int) + 1 ≤ |2 * k.den * N - 2 * k.num * v| := by
      have : (k.den : Int) < |2 * k.den * N - 2 * k.num * v| := by exact_mod_cast h1
      omega
    have h3 : (k.den : Rat) + 1 ≤ (2 * k.den) * |(N : Rat) - k * v| := by
      have e : ((2 * k.den * N - 2 * k.num * v : Int) : Rat) = (2 * k.den) * (N - k * v) := by
        push_cast; rw [← hkk]; ring
      rw [← abs_of_pos (show (0 : Rat) < 2 * k.den by linarith), ← abs_mul, ← e]
      exact_mod_cast h2
    have h4 : |(N : Rat) - k * v| ≤ |(N : Rat) - z| + |z - k * v| := by
      have := abs_add_le ((N : Rat) - z) (z - k * v); rwa [sub_add_sub_cancel] at this
    nlinarith
  refine ⟨N, i64_small ?_, hN⟩
  have h5 : |(N : Rat)| ≤ 4000000 := by
    have := abs_add_le ((N : Rat) - k * v) (k * v)
    rw [sub_add_cancel, abs_mul k, abs_of_pos hpos] at this
    linarith
  have : |N| ≤ 4000000 := by exact_mod_cast h5
  omega

/-- C32 (partial), any size: a conversion is off by at most half a unit plus one part in 2^22. -/
theorem C32_error_partial (src dst : Mag) {v : Int} (hk : src.per dst * |(v : Rat)| ≤ 2 ^ 61) :
    ∃ r, KTime.convert src dst v = .ok r ∧ |(r : Rat) - src.per dst * v| ≤ 1 / 2 + src.per dst * |(v : Rat)| / 2 ^ 22 := by
  have herr := product_err_any src dst v
  unfold KTime.convert KTime.fromOther
  generalize rnd (KTime.ratio src dst * rnd v) = z at *
  have hpos := per_pos src dst
  generalize src.per dst = k at *
  have hra := roundAway_err z
  generalize roundAway z = N at *
  have h4 : |(N : Rat) - k * v| ≤ |(N : Rat) - z| + |z - k * v| := by
    have := abs_add_le ((N : Rat) - z) (z - k * v); rwa [sub_add_sub_cancel] at this
  refine ⟨N, i64_small ?_, by linarith⟩
  have h5 : |(N : Rat)| ≤ 2 ^ 62 := by
    have := abs_add_le ((N : Rat) - k * v) (k * v)
    rw [sub_add_cancel, abs_mul k, abs_of_pos hpos] at this
    linarith
  exact_mod_cast h5

/-- C32 is false: a day is not 86400000 ms, three hours are not 10800000 ms, 8389 s are not 8389000 ms, and
4195 ms are not 4195000 us. -/
theorem C32_counterexample :
    KTime.convert .day .milli 1 = .ok 86399992 ∧ KTime.convert .hour .milli 3 = .ok 10799999 ∧
    KTime.convert .base .milli 8389 = .ok 8388999 ∧ KTime.convert .milli .micro 4195 = .ok 4195001 := by
  decide +kernel

/-- C32 is false for ties: 500 us round down to 0 ms, while 500 ms round up to 1 s
(`units/time.hpp:26` says that they give 0). -/
theorem C32_tie_counterexample :
    KTime.convert .micro .milli 500 = .ok 0 ∧ KTime.convert .milli .base 500 = .ok 1 := by
  decide +kernel

/-- C32, the exact cases: converting hours, minutes and days to seconds, or to any coarser integral unit they are a
multiple of, within the bound. Non-vacuity of the theorem above: 45 minutes are 2700 s and 2700000 ms. -/
example : KTime.convert .minute .milli 45 = .ok 2700000 := by
  obtain ⟨r, h1, h2⟩ := C32_nearest_partial .minute .milli (v := 45) (by norm_num) (by norm_num [Mag.per, Mag.seconds])
  have e : Mag.per .minute .milli * ((45 : Int) : Rat) = ((2700000 : Int) : Rat) := by norm_num [Mag.per, Mag.seconds]
  rw [e] at h2
  have h3 : |r - 2700000| ≤ 0 := by
    have : |((r - 2700000 : Int) : Rat)| < 1 := by push_cast; push_cast at h2; linarith
    have : |r - 2700000| < 1 := by exact_mod_cast this
    omega
  have : r = 2700000 := by rw [abs_le] at h3; omega
  rw [h1, this]

end Spine
