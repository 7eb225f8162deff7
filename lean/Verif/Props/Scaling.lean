import Verif.Model.Scaling
import Verif.Props.Units
/-!
# Properties C126 and C127: scaling kernel times in place
-/

namespace Spine

open F32

/-- What is used of a floating point type with `p` bits of precision: rounding keeps order and does not change integers up to `2^p`. -/
structure Rounds (p : Nat) (R : Rat → Rat) : Prop where
  mono : ∀ {x y}, x ≤ y → R x ≤ R y
  int : ∀ {n : Int}, |n| ≤ 2 ^ p → R n = n

/-- `float` is such a type. -/
theorem float_rounds : Rounds 24 rnd := ⟨rnd_mono, rnd_int⟩

theorem truncate_int (n : Int) : truncate n = n := by
  unfold truncate
  split
  · exact Int.floor_intCast n
  · rw [← Int.cast_neg, Int.floor_intCast]; omega

theorem truncate_mono {x y : Rat} (h : x ≤ y) : truncate x ≤ truncate y := by
  unfold truncate
  split
  · rw [if_pos (by linarith)]; exact Int.floor_le_floor h
  · next hx =>
    split
    · next hy =>
      have h1 : 0 ≤ ⌊-x⌋ := Int.floor_nonneg.mpr (by linarith)
      have h2 : 0 ≤ ⌊y⌋ := Int.floor_nonneg.mpr hy
      omega
    · have : ⌊-y⌋ ≤ ⌊-x⌋ := Int.floor_le_floor (by linarith)
      omega

private theorem between {p : Nat} {R : Rat → Rat} (hR : Rounds p R) {x : Rat} (hx : |x| ≤ 2 ^ p) : ⌊x⌋ ≤ truncate (R x) ∧ truncate (R x) ≤ ⌈x⌉ := by
  rw [abs_le] at hx
  have a : |⌊x⌋| ≤ 2 ^ p := by
    rw [abs_le]
    refine ⟨Int.le_floor.mpr (by push_cast; exact hx.1), ?_⟩
    have : (⌊x⌋ : Rat) ≤ ((2 ^ p : Int) : Rat) := by push_cast; exact (Int.floor_le x).trans hx.2
    exact_mod_cast this
  have b : |⌈x⌉| ≤ 2 ^ p := by
    rw [abs_le]
    refine ⟨?_, Int.ceil_le.mpr (by push_cast; exact hx.2)⟩
    have : ((-2 ^ p : Int) : Rat) ≤ (⌈x⌉ : Rat) := by push_cast; exact hx.1.trans (Int.le_ceil x)
    exact_mod_cast this
  have c := truncate_mono (hR.mono (Int.floor_le x))
  have d := truncate_mono (hR.mono (Int.le_ceil x))
  rw [hR.int a, truncate_int] at c
  rw [hR.int b, truncate_int] at d
  exact ⟨c, d⟩

private theorem fits {p : Nat} (hp : p ≤ 62) {R : Rat → Rat} (hR : Rounds p R) {x : Rat} (hx : |x| ≤ 2 ^ p) :
    i64 (truncate (R x)) = .ok (truncate (R x)) ∧ |(truncate (R x) : Rat) - x| < 1 := by
  have ⟨c, d⟩ := between hR hx
  have hx' := abs_le.mp hx
  have hpow : (2 : Int) ^ p ≤ 2 ^ 62 := pow_le_pow_right₀ (by norm_num) hp
  have e : -2 ^ p ≤ ⌊x⌋ := Int.le_floor.mpr (by push_cast; exact hx'.1)
  have f : ⌈x⌉ ≤ 2 ^ p := Int.ceil_le.mpr (by push_cast; exact hx'.2)
  refine ⟨i64_ok (by unfold InI64; omega), ?_⟩
  have c' : (⌊x⌋ : Rat) ≤ truncate (R x) := by exact_mod_cast c
  have d' : (truncate (R x) : Rat) ≤ ⌈x⌉ := by exact_mod_cast d
  rw [abs_lt]
  constructor
  · linarith [Int.lt_floor_add_one x]
  · linarith [Int.ceil_lt_add_one x]

/-! ## C126 -/

/-- C126 (partial). With any floating point type of `p` bits, a time up to `2^p` scaled to at most `2^p` is less than one unit from the exact product or quotient, and the
exact one if that is whole. Division by zero is reported.
Missing: larger times and products (`C126_large_counterexample`) and rounding to the nearest (`C126_truncated_counterexample`). -/
theorem C126_scaled_partial {p : Nat} (hp : p ≤ 62) {R : Rat → Rat} (hR : Rounds p R) {v : Int} (hv : |v| ≤ 2 ^ p) (q : Rat) :
    (|v * q| ≤ 2 ^ p → ∃ c, KTime.mulFloat R v (.fin q) = .ok c ∧ |(c : Rat) - v * q| < 1 ∧ ∀ k : Int, v * q = k → c = k) ∧
    (q ≠ 0 → |v / q| ≤ 2 ^ p → ∃ c, KTime.divFloat R v (.fin q) = .ok c ∧ |(c : Rat) - v / q| < 1 ∧ ∀ k : Int, v / q = k → c = k) ∧
    KTime.divFloat R v (.fin 0) = .error .exception := by
  have key : ∀ x : Rat, |x| ≤ 2 ^ p → ∃ c, i64 (truncate (R x)) = .ok c ∧ |(c : Rat) - x| < 1 ∧ ∀ k : Int, x = k → c = k := by
    intro x hx
    obtain ⟨a, b⟩ := fits hp hR hx
    refine ⟨_, a, b, ?_⟩
    rintro k rfl
    have : |truncate (R k) - k| < 1 := by exact_mod_cast b
    rw [abs_lt] at this; omega
  refine ⟨fun h => ?_, fun h0 h => ?_, by simp [KTime.divFloat]⟩
  · simp only [KTime.mulFloat, hR.int hv]; exact key _ h
  · simp only [KTime.divFloat, hR.int hv, if_neg h0]; exact key _ h

/-- C126: scaling by a number that is not negative keeps the order of times, whatever the values. -/
theorem C126_order {p : Nat} {R : Rat → Rat} (hR : Rounds p R) {v w a b : Int} (h : v ≤ w) {q : Rat} (hq : 0 ≤ q) :
    (KTime.mulFloat R v (.fin q) = .ok a → KTime.mulFloat R w (.fin q) = .ok b → a ≤ b) ∧
    (KTime.divFloat R v (.fin q) = .ok a → KTime.divFloat R w (.fin q) = .ok b → a ≤ b) := by
  have hc : (v : Rat) ≤ w := by exact_mod_cast h
  have key : ∀ x y : Int, i64 x = .ok a → i64 y = .ok b → x ≤ y → a ≤ b := by
    intro x y h1 h2 h3
    unfold i64 at h1 h2
    split at h1 <;> simp at h1
    split at h2 <;> simp at h2
    omega
  refine ⟨fun h1 h2 => key _ _ h1 h2 (truncate_mono (hR.mono (mul_le_mul_of_nonneg_right (hR.mono hc) hq))), fun h1 h2 => ?_⟩
  simp only [KTime.divFloat] at h1 h2
  split at h1
  · simp at h1
  · next h0 =>
    rw [if_neg h0] at h2
    exact key _ _ h1 h2 (truncate_mono (hR.mono (div_le_div_of_nonneg_right (hR.mono hc) hq)))

/-- C126 is false for larger times: whatever time is no `float`, multiplying or dividing it by 1 changes it. -/
theorem C126_large_counterexample {v : Int} (hv : rnd v ≠ v) : KTime.mulFloat rnd v (.fin 1) ≠ .ok v ∧ KTime.divFloat rnd v (.fin 1) ≠ .ok v := by
  obtain ⟨k, hk⟩ := rnd_isInt v
  have : ∀ c, i64 (truncate (rnd (rnd v))) = .ok c → c ≠ v := by
    rintro c h rfl
    rw [rnd_rnd, hk, truncate_int] at h
    unfold i64 at h
    split at h <;> simp at h
    exact hv (by rw [hk, h])
  constructor
  · intro h; simp only [KTime.mulFloat, mul_one] at h; exact this _ h rfl
  · intro h; simp only [KTime.divFloat, div_one, if_neg one_ne_zero] at h; exact this _ h rfl

/-- Non-vacuity of the counterexample: 4 hours, 39 minutes and 37.217 s in milliseconds. -/
example : rnd (2 ^ 24 + 1 : Int) ≠ (2 ^ 24 + 1 : Int) := by decide +kernel

/-- C126 is false as to rounding: scaling by a half drops the half unit of every odd time. -/
theorem C126_truncated_counterexample {m : Int} (h0 : 0 ≤ m) (h1 : m < 2 ^ 22) :
    KTime.mulFloat rnd (2 * m + 1) (.fin (1 / 2)) = .ok m ∧ KTime.divFloat rnd (2 * m + 1) (.fin 2) = .ok m := by
  have hm : |2 * m + 1| ≤ 2 ^ 24 := by rw [abs_le]; constructor <;> omega
  have h2 : rnd (m + 1 / 2 : Rat) = m + 1 / 2 := by
    have := rnd_exact (m := 2 * m + 1) (e := -1) hm (by norm_num)
    rw [pow2_eq] at this
    push_cast at this
    rw [show ((2 * m + 1 : Rat)) * 2 ^ (-1 : Int) = m + 1 / 2 by rw [zpow_neg_one]; ring] at this
    exact this
  have h3 : truncate (m + 1 / 2 : Rat) = m := by
    have : (0 : Rat) ≤ m := by exact_mod_cast h0
    rw [truncate, if_pos (by linarith), Int.floor_intCast_add, show ⌊(1 / 2 : Rat)⌋ = 0 by norm_num]
    omega
  have h4 : i64 m = .ok m := i64_ok (by unfold InI64; omega)
  constructor
  · simp only [KTime.mulFloat, rnd_int hm]
    rw [show ((2 * m + 1 : Int) : Rat) * (1 / 2) = m + 1 / 2 by push_cast; ring, h2, h3, h4]
  · simp only [KTime.divFloat, rnd_int hm]
    rw [if_neg (by norm_num), show ((2 * m + 1 : Int) : Rat) / 2 = m + 1 / 2 by push_cast; ring, h2, h3, h4]

/-- 999 ms scaled by a thousandth, against the conversion to seconds. -/
example : KTime.mulFloat rnd 999 (.fin (rnd (1 / 1000))) = .ok 0 ∧ KTime.fromOther .milli .base 999 = .ok 1 := by decide +kernel

/-- C126: scaling by NaN, or multiplying by an infinity, is undefined. -/
theorem C126_special_counterexample (R : Rat → Rat) (v : Int) (s : Bool) :
    KTime.mulFloat R v .nan = .error .ub ∧ KTime.mulFloat R v (.inf s) = .error .ub ∧ KTime.divFloat R v .nan = .error .ub := ⟨rfl, rfl, rfl⟩

/-! ## C127 -/

/-- C127 (partial). Multiplying by an unsigned count gives the product whenever it fits; dividing a time that is not negative gives the whole number of units, and division by
zero is reported.
Missing: products that do not fit wrap, and negative times (`C127_negative_counterexample`). -/
theorem C127_count_partial {v : Int} (hv : InI64 v) (n : Nat) :
    (InI64 (v * n) → KTime.mulUnsigned v n = .ok (v * n)) ∧ (0 ≤ v → 0 < n → KTime.divUnsigned v n = .ok (v / n)) ∧
    KTime.divUnsigned v 0 = .error .exception := by
  have sg : ∀ x : Int, InI64 x → KTime.signed x = x := by
    intro x h; unfold KTime.signed InI64 at *; split <;> omega
  refine ⟨fun h => ?_, fun h0 hn => ?_, by simp [KTime.divUnsigned]⟩
  · have : KTime.signed (v % 2 ^ 64 * n) = KTime.signed (v * n) := by
      unfold KTime.signed; rw [Int.mul_emod, Int.emod_emod_of_dvd _ (dvd_refl _), ← Int.mul_emod]
    rw [KTime.mulUnsigned, this, sg _ h]
  · have hm : v % 2 ^ 64 = v := by unfold InI64 at hv; omega
    rw [KTime.divUnsigned, if_neg (by omega), hm, sg]
    have h1 : v / n ≤ v := Int.ediv_le_self _ h0
    have h2 : 0 ≤ v / n := Int.ediv_nonneg h0 (by omega)
    unfold InI64 at *; omega

/-- C127 is false for negative times: divided by a count of two or more they become positive, more than 2^63 / n units. -/
theorem C127_negative_counterexample {v : Int} (hv : InI64 v) (h0 : v < 0) {n : Nat} (hn : 2 ≤ n) :
    ∃ c, KTime.divUnsigned v n = .ok c ∧ 2 ^ 63 / (n : Int) ≤ c := by
  have hm : v % 2 ^ 64 = v + 2 ^ 64 := by unfold InI64 at hv; omega
  refine ⟨_, by rw [KTime.divUnsigned, if_neg (by omega)], ?_⟩
  have h1 : (v + 2 ^ 64) / (n : Int) < 2 ^ 63 := by
    apply Int.ediv_lt_of_lt_mul (by omega)
    nlinarith
  have h2 : 2 ^ 63 / (n : Int) ≤ (v + 2 ^ 64) / n := Int.ediv_le_ediv (by omega) (by unfold InI64 at hv; omega)
  have h3 : 0 ≤ 2 ^ 63 / (n : Int) := Int.ediv_nonneg (by norm_num) (by omega)
  rw [hm]
  unfold KTime.signed
  rw [Int.emod_eq_of_lt (by omega) (by omega), if_pos h1]
  exact h2

/-- C127 is false for products that do not fit: they wrap silently, where a signed scalar of the same value is an overflow. -/
theorem C127_wrap_counterexample : KTime.mulUnsigned (2 ^ 62) 2 = .ok (-2 ^ 63) ∧ KTime.scale (2 ^ 62) 2 = .error .ub := by
  constructor <;> decide +kernel

/-- Non-vacuity: 90 s by 1.5 are 135 s; 7 s by 2u are 3 s; -10 s by 2u are not -5 s. -/
example : KTime.mulFloat rnd 90 (.fin (3 / 2)) = .ok 135 ∧ KTime.divUnsigned 7 2 = .ok 3 ∧ KTime.divUnsigned (-10) 2 = .ok 9223372036854775803 := by
  obtain ⟨c, h1, -, h2⟩ := (C126_scaled_partial (by norm_num) float_rounds (v := 90) (by norm_num) (3 / 2)).1 (by norm_num [abs_le])
  refine ⟨by rw [h1, h2 135 (by norm_num)], ?_, by decide +kernel⟩
  rw [(C127_count_partial (v := 7) (by unfold InI64; norm_num) 2).2.1 (by norm_num) (by norm_num)]
  rfl

end Spine
