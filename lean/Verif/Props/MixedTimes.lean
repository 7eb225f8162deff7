import Verif.Props.Units
/-!
# Properties C124 and C125: kernel times in different units
-/

namespace Spine

/-- The quantity `w` of unit `other`, in the unit `mine`. -/
abbrev Mag.amount (other mine : Mag) (w : Int) : Rat := other.per mine * w

private theorem operand {mine other : Mag} {w : Int} (hw : |w| ≤ 3000000) (hk : other.per mine * |(w : Rat)| ≤ 3000000) :
    ∃ r, KTime.fromOther other mine w = .ok r ∧ |(r : Rat) - other.amount mine w| ≤ 1 / 2 ∧ |r| ≤ 3000001 := by
  obtain ⟨r, h1, h2⟩ := C32_nearest_partial other mine hw hk
  refine ⟨r, h1, h2, ?_⟩
  have h3 : |(r : Rat)| ≤ 3000001 := by
    have := abs_add_le ((r : Rat) - other.amount mine w) (other.amount mine w)
    rw [sub_add_cancel, Mag.amount, abs_mul, abs_of_pos (per_pos other mine)] at this
    linarith
  exact_mod_cast h3

private theorem whole {r : Int} {x : Rat} (h : |(r : Rat) - x| ≤ 1 / 2) (hx : ∃ k : Int, x = k) : (r : Rat) = x := by
  obtain ⟨k, rfl⟩ := hx
  have h1 : |((r - k : Int) : Rat)| < 1 := by push_cast; linarith
  have h2 : |r - k| < 1 := by exact_mod_cast h1
  have : r = k := by rw [abs_lt] at h2; omega
  rw [this]

/-! ## C124 -/

/-- C124 (partial). If the right operand, in either unit, is at most 3,000,000, a sum or difference of times in any two units is the nearest time in the unit of the
left operand.
Missing: larger right operands, which are rounded more (`C124_error_partial`, `C31_counterexample`, `C32_counterexample`). -/
theorem C124_sum_partial (mine other : Mag) {v w : Int} (hv : |v| ≤ 2 ^ 62) (hw : |w| ≤ 3000000) (hk : other.per mine * |(w : Rat)| ≤ 3000000) :
    (∃ c, KTime.add mine other v w = .ok c ∧ |(c : Rat) - (v + other.amount mine w)| ≤ 1 / 2) ∧
    (∃ c, KTime.sub mine other v w = .ok c ∧ |(c : Rat) - (v - other.amount mine w)| ≤ 1 / 2) := by
  obtain ⟨r, h1, h2, h3⟩ := operand hw hk
  rw [abs_le] at hv h3
  refine ⟨⟨v + r, ?_, ?_⟩, ⟨v - r, ?_, ?_⟩⟩
  · simp only [KTime.add, h1, res_bind_ok]; apply i64_ok; unfold InI64; omega
  · push_cast; rw [add_sub_add_left_eq_sub]; exact h2
  · simp only [KTime.sub, h1, res_bind_ok]; apply i64_ok; unfold InI64; omega
  · push_cast; rw [sub_sub_sub_cancel_left, abs_sub_comm]; exact h2

/-- C124 (partial). With the finer unit on the left, or more generally if the right operand is a whole number of units of the left one, all comparisons are those of the
quantities.
Missing: the other operands (`C124_coarse_counterexample`). -/
theorem C124_compare_partial (mine other : Mag) {v w : Int} (hw : |w| ≤ 3000000) (hk : other.per mine * |(w : Rat)| ≤ 3000000)
    (hx : ∃ k : Int, other.amount mine w = k) :
    KTime.eq mine other v w = .ok (decide ((v : Rat) = other.amount mine w)) ∧ KTime.ne mine other v w = .ok (decide ((v : Rat) ≠ other.amount mine w)) ∧
    KTime.lt mine other v w = .ok (decide ((v : Rat) < other.amount mine w)) ∧ KTime.le mine other v w = .ok (decide ((v : Rat) ≤ other.amount mine w)) ∧
    KTime.gt mine other v w = .ok (decide ((v : Rat) > other.amount mine w)) ∧ KTime.ge mine other v w = .ok (decide ((v : Rat) ≥ other.amount mine w)) := by
  obtain ⟨r, h1, h2, -⟩ := operand hw hk
  rw [← whole h2 hx]
  simp only [KTime.eq, KTime.ne, KTime.lt, KTime.le, KTime.gt, KTime.ge, h1, res_bind_ok, res_pure]
  refine ⟨?_, ?_, ?_, ?_, ?_, ?_⟩ <;> congr 1 <;> (try rw [← decide_not]) <;> rw [decide_eq_decide] <;> norm_cast

/-- The left unit is the finer one: a condition on the units alone. -/
theorem C124_finer (mine other : Mag) (h : mine.seconds ≤ other.seconds) (w : Int) : ∃ k : Int, other.amount mine w = k := by
  have key : ∀ x : Rat, other.per mine = x → x.den = 1 → ∃ k : Int, other.amount mine w = k := by
    intro x hx hd
    refine ⟨x.num * w, ?_⟩
    have hkk : x * x.den = x.num := Rat.mul_den_eq_num x
    rw [hd] at hkk; push_cast at hkk
    rw [Mag.amount, hx]; push_cast; rw [← hkk]; ring
  refine key _ rfl ?_
  revert h
  cases mine <;> cases other <;> decide +kernel

/-- C124 (partial). With any units, `<` and `>` can be wrong only if the quantities differ by no more than half a unit of the left operand. -/
theorem C124_order_partial (mine other : Mag) {v w : Int} (hw : |w| ≤ 3000000) (hk : other.per mine * |(w : Rat)| ≤ 3000000)
    (hd : |(v : Rat) - other.amount mine w| > 1 / 2) :
    KTime.lt mine other v w = .ok (decide ((v : Rat) < other.amount mine w)) ∧ KTime.gt mine other v w = .ok (decide ((v : Rat) > other.amount mine w)) ∧
    KTime.eq mine other v w = .ok false := by
  obtain ⟨r, h1, h2, -⟩ := operand hw hk
  generalize other.amount mine w = x at *
  have h2' := abs_le.mp h2
  have hne : v ≠ r := by rintro rfl; exact absurd h2 (not_le.mpr hd)
  have hlt : v < r ↔ (v : Rat) < x := by
    constructor
    · intro h
      have : (v : Rat) + 1 ≤ r := by exact_mod_cast h
      linarith
    · intro h
      rw [abs_of_neg (by linarith)] at hd
      have : (v : Rat) < r := by linarith
      exact_mod_cast this
  have hgt : v > r ↔ (v : Rat) > x := by
    constructor
    · intro h
      have : (r : Rat) + 1 ≤ v := by exact_mod_cast h
      linarith
    · intro h
      rw [abs_of_pos (by linarith)] at hd
      have : (r : Rat) < v := by linarith
      exact_mod_cast this
  simp only [KTime.eq, KTime.lt, KTime.gt, h1, res_bind_ok, res_pure]
  refine ⟨?_, ?_, ?_⟩ <;> congr 1
  · rw [decide_eq_decide]; exact hlt
  · rw [decide_eq_decide]; exact hgt
  · exact decide_eq_false hne

private theorem seconds_of {a d : Int} (ha : |a| ≤ 2900) (hd : |d| ≤ 499) : KTime.fromOther .milli .base (1000 * a + d) = .ok a := by
  rw [abs_le] at ha hd
  have hb : |1000 * a + d| ≤ 3000000 := by rw [abs_le]; constructor <;> omega
  have hb' : |((1000 * a + d : Int) : Rat)| ≤ 3000000 := by exact_mod_cast hb
  have hp : Mag.per .milli .base = 1 / 1000 := by norm_num [Mag.per, Mag.seconds]
  obtain ⟨r, h1, h2, -⟩ := operand (mine := .base) (other := .milli) (w := 1000 * a + d) hb (by rw [hp]; linarith)
  rw [h1]
  rw [Mag.amount, hp] at h2
  push_cast at h2
  have h3 := abs_le.mp h2
  have d0 : (-499 : Rat) ≤ d := by exact_mod_cast hd.1
  have d1 : (d : Rat) ≤ 499 := by exact_mod_cast hd.2
  have h4 : |((r - a : Int) : Rat)| < 1 := by push_cast; rw [abs_lt]; constructor <;> linarith
  have h5 : |r - a| < 1 := by exact_mod_cast h4
  have : r = a := by rw [abs_lt] at h5; omega
  rw [this]

private theorem millis_of {a : Int} (ha : |a| ≤ 2900) : KTime.fromOther .base .milli a = .ok (1000 * a) := by
  have hp : Mag.per .base .milli = 1000 := by norm_num [Mag.per, Mag.seconds]
  have ha' : |(a : Rat)| ≤ 2900 := by exact_mod_cast ha
  obtain ⟨r, h1, h2, -⟩ := operand (mine := .milli) (other := .base) (w := a) (by omega) (by rw [hp]; linarith)
  have h3 := whole h2 ⟨1000 * a, by rw [Mag.amount, hp]; push_cast; rfl⟩
  rw [Mag.amount, hp] at h3
  rw [h1]
  have : r = 1000 * a := by exact_mod_cast h3
  rw [this]

/-- C124 (partial), right operands of any size (up to 2^61 in the unit of the left one): a sum or difference is off by at most half a unit plus one part in 2^22 of the right operand,
and `<` and `>` are right, and `==` false, if the quantities differ by more than that. -/
theorem C124_error_partial (mine other : Mag) {v w : Int} (hv : |v| ≤ 2 ^ 61) (hk : other.per mine * |(w : Rat)| ≤ 2 ^ 61) :
    (∃ c, KTime.add mine other v w = .ok c ∧ |(c : Rat) - (v + other.amount mine w)| ≤ 1 / 2 + |other.amount mine w| / 2 ^ 22) ∧
    (∃ c, KTime.sub mine other v w = .ok c ∧ |(c : Rat) - (v - other.amount mine w)| ≤ 1 / 2 + |other.amount mine w| / 2 ^ 22) ∧
    (|(v : Rat) - other.amount mine w| > 1 / 2 + |other.amount mine w| / 2 ^ 22 →
      KTime.lt mine other v w = .ok (decide ((v : Rat) < other.amount mine w)) ∧ KTime.gt mine other v w = .ok (decide ((v : Rat) > other.amount mine w)) ∧
      KTime.eq mine other v w = .ok false) := by
  obtain ⟨r, h1, h2⟩ := C32_error_partial other mine hk
  replace h1 : KTime.fromOther other mine w = .ok r := h1
  have hx : |other.amount mine w| = other.per mine * |(w : Rat)| := by rw [Mag.amount, abs_mul, abs_of_pos (per_pos other mine)]
  rw [← hx] at h2 hk
  replace h2 : |(r : Rat) - other.amount mine w| ≤ 1 / 2 + |other.amount mine w| / 2 ^ 22 := h2
  generalize other.amount mine w = x at *
  have hr : |r| ≤ 2 ^ 62 := by
    have h3 : |(r : Rat)| ≤ 2 ^ 62 := by
      have := abs_add_le ((r : Rat) - x) x
      rw [sub_add_cancel] at this
      linarith
    exact_mod_cast h3
  rw [abs_le] at hv hr
  have h2' := abs_le.mp h2
  refine ⟨⟨v + r, ?_, ?_⟩, ⟨v - r, ?_, ?_⟩, fun hd => ?_⟩
  · simp only [KTime.add, h1, res_bind_ok]; apply i64_ok; unfold InI64; omega
  · push_cast; rw [add_sub_add_left_eq_sub]; exact h2
  · simp only [KTime.sub, h1, res_bind_ok]; apply i64_ok; unfold InI64; omega
  · push_cast; rw [sub_sub_sub_cancel_left, abs_sub_comm]; exact h2
  · generalize 1 / 2 + |x| / 2 ^ 22 = ε at *
    have hε : 0 ≤ ε := (abs_nonneg _).trans h2
    have hlt : v < r ↔ (v : Rat) < x := by
      constructor
      · intro h
        have h3 : (v : Rat) < r := by exact_mod_cast h
        by_contra hc
        rw [abs_of_nonneg (by linarith)] at hd
        linarith
      · intro h
        rw [abs_of_neg (by linarith)] at hd
        have : (v : Rat) < r := by linarith
        exact_mod_cast this
    have hgt : v > r ↔ (v : Rat) > x := by
      constructor
      · intro h
        have h3 : (r : Rat) < v := by exact_mod_cast h
        by_contra hc
        rw [abs_of_nonpos (by linarith)] at hd
        linarith
      · intro h
        rw [abs_of_pos (by linarith)] at hd
        have : (r : Rat) < v := by linarith
        exact_mod_cast this
    have hne : v ≠ r := by rintro rfl; exact absurd h2 (not_le.mpr hd)
    simp only [KTime.eq, KTime.lt, KTime.gt, h1, res_bind_ok, res_pure]
    refine ⟨?_, ?_, ?_⟩ <;> congr 1
    · rw [decide_eq_decide]; exact hlt
    · rw [decide_eq_decide]; exact hgt
    · simpa using hne

/-- Non-vacuity: 30,000,000,000 ms are less than 10,000 hours. -/
example : KTime.lt .milli .hour 30000000000 10000 = .ok true := by
  have h := ((C124_error_partial .milli .hour (v := 30000000000) (w := 10000) (by norm_num) (by norm_num [Mag.per, Mag.seconds])).2.2
    (by norm_num [Mag.amount, Mag.per, Mag.seconds, abs_of_pos, abs_of_neg])).1
  rw [h]
  norm_num [Mag.amount, Mag.per, Mag.seconds]

/-- C124 is false with the coarser unit on the left: `a` seconds equal every time within 499 ms of them, are not less than the longer ones, and equality depends on the order of
the operands. -/
theorem C124_coarse_counterexample {a d : Int} (ha : |a| ≤ 2900) (hd : |d| ≤ 499) (h0 : 0 < d) :
    KTime.eq .base .milli a (1000 * a + d) = .ok true ∧ KTime.lt .base .milli a (1000 * a + d) = .ok false ∧ KTime.eq .milli .base (1000 * a + d) a = .ok false := by
  simp only [KTime.eq, KTime.lt, seconds_of ha hd, millis_of ha, res_bind_ok, res_pure]
  refine ⟨?_, ?_, ?_⟩ <;> simp
  omega

/-- Non-vacuity: 2 minutes are 120000 ms; 1 s plus 1.4 s are 2 s. -/
example : KTime.eq .milli .minute 120000 2 = .ok true ∧ KTime.add .base .milli 1 1400 = .ok 2 := by
  constructor
  · have := (C124_compare_partial .milli .minute (v := 120000) (w := 2) (by norm_num) (by norm_num [Mag.per, Mag.seconds]) (C124_finer _ _ (by decide +kernel) _)).1
    rw [this]; norm_num [Mag.amount, Mag.per, Mag.seconds]
  · obtain ⟨c, h1, h2⟩ := (C124_sum_partial .base .milli (v := 1) (w := 1400) (by norm_num) (by norm_num) (by norm_num [Mag.per, Mag.seconds])).1
    rw [h1]
    norm_num [Mag.amount, Mag.per, Mag.seconds] at h2
    rw [abs_le] at h2
    have a1 : (1 : Rat) < c := by linarith
    have a2 : (c : Rat) < 3 := by linarith
    have b1 : 1 < c := by exact_mod_cast a1
    have b2 : c < 3 := by exact_mod_cast a2
    rw [show c = 2 by omega]

/-! ## C125 -/

/-- C125 (partial). If the divisor is a whole number of units of the dividend, the quotient is how often it fits, and division by zero is reported exactly if the divisor is
zero.
Missing: the other divisors (`C125_short_counterexample`, `C125_rounded_counterexample`). -/
theorem C125_quotient_partial (mine other : Mag) {v w k : Int} (hv : InI64 v) (hv' : v ≠ -2 ^ 63) (hw : |w| ≤ 3000000) (hk : other.per mine * |(w : Rat)| ≤ 3000000)
    (hx : other.amount mine w = k) :
    KTime.divTime mine other v w = if w = 0 then .error .exception else .ok (v.tdiv k) := by
  obtain ⟨r, h1, h2, -⟩ := operand hw hk
  have h3 := whole h2 ⟨k, hx⟩
  rw [hx] at h3
  have : r = k := by exact_mod_cast h3
  subst this
  have hz : r = 0 ↔ w = 0 := by
    have hpos := per_pos other mine
    constructor
    · rintro rfl
      rw [Mag.amount] at hx
      push_cast at hx
      rcases mul_eq_zero.mp hx with h | h
      · linarith
      · exact_mod_cast h
    · rintro rfl
      rw [Mag.amount] at hx
      push_cast at hx
      rw [mul_zero] at hx
      exact_mod_cast hx.symm
  simp only [KTime.divTime, h1, res_bind_ok, hz]
  split
  · rfl
  · next h =>
    apply i64_ok
    have h4 : (v.tdiv r).natAbs ≤ v.natAbs := by rw [Int.natAbs_tdiv]; exact Nat.div_le_self _ _
    unfold InI64 at *
    omega

/-- C125 is false for short divisors: whatever number of seconds is divided by 1 to 499 ms, a division by zero is reported. -/
theorem C125_short_counterexample (v : Int) {w : Int} (h0 : 0 < w) (h1 : w ≤ 499) : KTime.divTime .base .milli v w = .error .exception := by
  have := seconds_of (a := 0) (d := w) (by norm_num) (by rw [abs_le]; constructor <;> omega)
  rw [mul_zero, zero_add] at this
  simp only [KTime.divTime, this, res_bind_ok, if_true]

/-- C125 is false for divisors that are rounded: 9 s are six times 1.5 s, but the quotient is 4, as 1.5 s are rounded to 2 s; and 9 s are 18 times 500 ms, but the quotient
is 9. -/
theorem C125_rounded_counterexample : KTime.divTime .base .milli 9 1500 = .ok 4 ∧ KTime.divTime .base .milli 9 500 = .ok 9 := by decide +kernel

/-- C125: the smallest time divided by minus one overflows. -/
theorem C125_overflow_counterexample (m : Mag) : KTime.divTime m m (-2 ^ 63) (-1) = .error .ub := by
  simp only [KTime.divTime, fromOther_small m (show |(-1 : Int)| ≤ 2 ^ 24 by norm_num), res_bind_ok]
  decide +kernel

/-- Non-vacuity: 3 minutes fit 25 times into 4500 s; zero is reported. -/
example : KTime.divTime .base .minute 4500 3 = .ok 25 ∧ KTime.divTime .base .minute 4500 0 = .error .exception := by
  constructor
  · rw [C125_quotient_partial .base .minute (k := 180) (by unfold InI64; norm_num) (by norm_num) (by norm_num) (by norm_num [Mag.per, Mag.seconds])
      (by norm_num [Mag.amount, Mag.per, Mag.seconds])]
    decide
  · rw [C125_quotient_partial .base .minute (k := 0) (by unfold InI64; norm_num) (by norm_num) (by norm_num) (by norm_num [Mag.per, Mag.seconds])
      (by norm_num [Mag.amount, Mag.per, Mag.seconds])]
    decide

end Spine
