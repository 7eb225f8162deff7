import Verif.Model.Compound
import Verif.Core.Bind
import Mathlib.Tactic.FieldSimp
import Mathlib.Tactic.Ring
import Mathlib.Tactic.Linarith
import Mathlib.Tactic.LinearCombination
import Mathlib.Algebra.Order.Round
/-!
# C62, C89, C90: compound units
-/

namespace Spine

open Compound

/-! ## C62: arithmetic -/

/-- The quantity a compound unit stands for, if there is one: `num` units of `mn` by `den` units of `md`. -/
def Quantity (mn md : Rat) (a : Compound Rat) (q : Rat) : Prop := a.den ≠ 0 ∧ q * (a.den * md) = a.num * mn

/-- A conversion between magnitudes (in exact arithmetic), or a copy. -/
def Converts (k : Option (Rat × Rat)) (other mine : Rat) : Prop := k = some (other, mine) ∨ k = none ∧ other = mine

theorem conv_exact {k : Option (Rat × Rat)} {other mine x : Rat} (h : Converts k other mine) (hm : mine ≠ 0) : conv k x * mine = x * other := by
  rcases h with rfl | ⟨rfl, rfl⟩
  · show other / mine * x * mine = x * other
    field_simp
  · rfl

theorem feq_zero {k : Rat} (hk : k ≠ 0) : feq k (fzero : Rat) = false := by
  rw [Bool.eq_false_iff]
  intro h
  rw [feq, Bool.and_eq_true] at h
  exact hk (le_antisymm (of_decide_eq_true h.1) (of_decide_eq_true h.2))

theorem raw_rat {a : Compound Rat} : (a.den = 0 → a.raw = .error .exception) ∧ (a.den ≠ 0 → a.raw = .ok (a.num / a.den)) := by
  constructor
  · intro h
    rw [raw, if_pos]
    simp [feq, fzero, Arith.le, Arith.ofRat, h]
  · intro h
    rw [raw, feq_zero h]
    rfl

/-- C62: `raw` is numerator by denominator; a denominator of zero is reported. -/
theorem C62_raw (a : Compound Rat) : (a.den = 0 ∧ a.raw = .error .exception) ∨ ∃ q, a.raw = .ok q ∧ Quantity 1 1 a q := by
  by_cases h : a.den = 0
  · exact .inl ⟨h, raw_rat.1 h⟩
  · exact .inr ⟨_, raw_rat.2 h, h, by field_simp⟩

/-- C62: sum, difference, negative and multiples of quantities, with operands in any magnitudes. -/
theorem C62_arith {a b : Compound Rat} {mn md on od qa qb : Rat} {kn kd : Option (Rat × Rat)} (hn : Converts kn on mn) (hd : Converts kd od md) (h1 : mn ≠ 0) (h2 : md ≠ 0)
    (h4 : od ≠ 0) (ha : Quantity mn md a qa) (hb : Quantity on od b qb) :
    Quantity mn md (add kn kd a b) (qa + qb) ∧ Quantity mn md (Compound.sub kn kd a b) (qa - qb) ∧ Quantity mn md (convert kn kd b) qb := by
  obtain ⟨a0, ea⟩ := ha
  obtain ⟨b0, eb⟩ := hb
  have en := conv_exact (x := b.num) hn h1
  have ed := conv_exact (x := b.den) hd h2
  have cd0 : conv kd b.den ≠ 0 := by
    intro h
    rw [h, zero_mul] at ed
    exact mul_ne_zero b0 h4 ed.symm
  rw [← ed, ← en] at eb
  refine ⟨⟨mul_ne_zero a0 cd0, ?_⟩, ⟨mul_ne_zero a0 cd0, ?_⟩, cd0, eb⟩
  · show (qa + qb) * (a.den * conv kd b.den * md) = (a.num * conv kd b.den + conv kn b.num * a.den) * mn
    linear_combination conv kd b.den * ea + a.den * eb
  · show (qa - qb) * (a.den * conv kd b.den * md) = (a.num * conv kd b.den - 1 * (conv kn b.num * a.den)) * mn
    linear_combination conv kd b.den * ea - a.den * eb

theorem C62_scale {a : Compound Rat} {mn md qa k : Rat} (ha : Quantity mn md a qa) :
    Quantity mn md (scale a k) (qa * k) ∧ Quantity mn md (neg a) (-qa) ∧ (k ≠ 0 → ∃ c, a.divide k = .ok c ∧ Quantity mn md c (qa / k)) ∧ a.divide 0 = .error .exception := by
  obtain ⟨a0, ea⟩ := ha
  refine ⟨⟨a0, ?_⟩, ⟨?_, ?_⟩, ?_, ?_⟩
  · show qa * k * (a.den * md) = a.num * k * mn
    linear_combination k * ea
  · show -1 * a.den ≠ 0
    simpa using a0
  · show -qa * (-1 * a.den * md) = a.num * mn
    linear_combination ea
  · intro hk
    have e := feq_zero hk
    refine ⟨⟨a.num / k, a.den⟩, ?_, a0, ?_⟩
    · simp only [divide, RUnit.divide, e]
      rfl
    · show qa / k * (a.den * md) = a.num / k * mn
      field_simp
      linear_combination ea
  · rw [divide, if_pos]
    simp [feq, fzero, Arith.le, Arith.ofRat]

/-- C62: a sum with an operand without a value has no value: `raw` reports it. -/
theorem C62_undefined {a b : Compound Rat} {kn kd : Option (Rat × Rat)} (h : a.den = 0 ∨ b.den = 0) :
    (add kn kd a b).raw = .error .exception ∧ (Compound.sub kn kd a b).raw = .error .exception := by
  have hc : a.den * conv kd b.den = 0 := by
    rcases h with h | h
    · rw [h, zero_mul]
    · rw [mul_eq_zero]
      right
      rcases kd with _ | ⟨o, m⟩
      · exact h
      · show o / m * b.den = 0
        rw [h, mul_zero]
  exact ⟨raw_rat.1 hc, raw_rat.1 hc⟩

/-- C62, reporting with `float`: dividing by either zero is reported, for all numerators. -/
theorem C62_float_zero (s : Bool) (x : Fl) : (⟨x, .num s 0⟩ : Compound Fl).raw = .error .exception ∧ (Compound.create : Compound Fl).raw = .error .exception := by
  have e : ∀ s, feq (.num s 0 : Fl) fzero = true := by intro s; cases s <;> decide +kernel
  constructor
  · rw [raw, if_pos (e s)]
  · rw [raw, if_pos]
    decide +kernel

/-- Half a metre per second and 36 km/h. -/
example : ∃ q, Quantity 1 1 (add (some (1000, 1)) (some (3600, 1)) ⟨1, 2⟩ ⟨36, 1⟩) q ∧ q = 21 / 2 := by
  refine ⟨_, (C62_arith (a := ⟨1, 2⟩) (b := ⟨36, 1⟩) (mn := 1) (md := 1) (on := 1000) (od := 3600) (qa := 1 / 2) (qb := 10) (.inl rfl) (.inl rfl) (by norm_num) (by norm_num) (by norm_num)
    ⟨by norm_num, by norm_num⟩ ⟨by norm_num, by norm_num⟩).1, by norm_num⟩

/-! ## C89: comparisons -/

/-- C89: `<`, `<=`, `>` and `>=` of compound units of the same magnitudes (or with the same ratio of magnitudes) compare the quantities, in exact arithmetic. Missing: other
magnitudes (`C89_magnitude_counterexample`). -/
theorem C89_order_partial {a b : Compound Rat} {mn md on od qa qb : Rat} (h1 : 0 < mn) (h2 : 0 < md) (h4 : 0 < od) (hr : mn / md = on / od)
    (ha : Quantity mn md a qa) (hb : Quantity on od b qb) : Compound.lt a b = .ok (decide (qa < qb)) ∧ Compound.le a b = .ok (decide (qa ≤ qb)) ∧
      Compound.gt a b = .ok (decide (qb < qa)) ∧ Compound.ge a b = .ok (decide (qb ≤ qa)) := by
  obtain ⟨a0, ea⟩ := ha
  obtain ⟨b0, eb⟩ := hb
  have xa : a.num / a.den = qa * (md / mn) := by field_simp; linear_combination -ea
  have hon : 0 < on := by
    have : 0 < on / od := hr ▸ div_pos h1 h2
    exact (div_pos_iff_of_pos_right h4).mp this
  have xb : b.num / b.den = qb * (md / mn) := by
    have : md / mn = od / on := by
      rw [div_eq_div_iff h1.ne' hon.ne']
      rw [div_eq_div_iff h2.ne' h4.ne'] at hr
      linear_combination -hr
    rw [this]
    field_simp
    linear_combination -eb
  have hp : 0 < md / mn := div_pos h2 h1
  simp only [Compound.lt, Compound.le, Compound.gt, Compound.ge, raw_rat.2 a0, raw_rat.2 b0, res_bind_ok, res_pure, Arith.lt, Arith.le, xa, xb]
  refine ⟨?_, ?_, ?_, ?_⟩
  · congr 1; exact decide_eq_decide.mpr ⟨fun h => lt_of_mul_lt_mul_right h hp.le, fun h => mul_lt_mul_of_pos_right h hp⟩
  · congr 1; exact decide_eq_decide.mpr ⟨fun h => le_of_mul_le_mul_right h hp, fun h => mul_le_mul_of_nonneg_right h hp.le⟩
  · congr 1; exact decide_eq_decide.mpr ⟨fun h => lt_of_mul_lt_mul_right h hp.le, fun h => mul_lt_mul_of_pos_right h hp⟩
  · congr 1; exact decide_eq_decide.mpr ⟨fun h => le_of_mul_le_mul_right h hp, fun h => mul_le_mul_of_nonneg_right h hp.le⟩

/-- C89 is false for other magnitudes: they are ignored. 1 m/s equals 1 km/h and 10 m/s are less than 20 km/h. -/
theorem C89_magnitude_counterexample :
    Compound.eq (⟨1, 1⟩ : Compound Rat) ⟨1, 1⟩ = .ok true ∧ Quantity 1 1 ⟨1, 1⟩ 1 ∧ Quantity 1000 3600 ⟨1, 1⟩ (5 / 18) ∧
    Compound.lt (⟨10, 1⟩ : Compound Rat) ⟨20, 1⟩ = .ok true ∧ Quantity 1 1 ⟨10, 1⟩ 10 ∧ Quantity 1000 3600 ⟨20, 1⟩ (50 / 9) := by
  refine ⟨by decide +kernel, ⟨by norm_num, by norm_num⟩, ⟨by norm_num, by norm_num⟩, by decide +kernel, ⟨by norm_num, by norm_num⟩, ⟨by norm_num, by norm_num⟩⟩

/-! ## C90: simplification -/

theorem scale_ok {x factor : Rat} (h0 : 0 ≤ x) (hf : 0 ≤ factor) (hb : x * factor ≤ 2 ^ 63) : ∃ n : Nat, scaleToInteger x factor = .ok n ∧ (1 / 2 ≤ x * factor → 0 < n) := by
  have hp : 0 ≤ x * factor := mul_nonneg h0 hf
  have e : F32.roundAway (x * factor) = ⌊x * factor + 1 / 2⌋ := by rw [F32.roundAway, if_pos hp]
  have h1 : 0 ≤ ⌊x * factor + 1 / 2⌋ := Int.floor_nonneg.mpr (by linarith)
  have h2 : ⌊x * factor + 1 / 2⌋ < 2 ^ 64 := by
    rw [Int.floor_lt]
    push_cast
    linarith
  refine ⟨_, by rw [scaleToInteger]; simp only [e]; rw [if_pos ⟨h1, h2⟩], fun h => ?_⟩
  have : 1 ≤ ⌊x * factor + 1 / 2⌋ := Int.le_floor.mpr (by push_cast; linarith)
  omega

/-- C90: for numerators and denominators that are not negative and not too large, one of them at least half a unit of the precision, `simplify` succeeds and keeps the
quantity. Missing: see the counterexamples; in particular the result is not in lowest terms. -/
theorem C90_simplify_partial {a : Compound Rat} {mn md q factor : Rat} (h1 : 0 ≤ a.num) (h2 : 0 ≤ a.den) (hf : 0 ≤ factor) (b1 : a.num * factor ≤ 2 ^ 63) (b2 : a.den * factor ≤ 2 ^ 63)
    (hp : 1 / 2 ≤ a.num * factor ∨ 1 / 2 ≤ a.den * factor) (hq : Quantity mn md a q) : ∃ c, simplify factor a = .ok c ∧ Quantity mn md c q := by
  obtain ⟨n, en, pn⟩ := scale_ok h1 hf b1
  obtain ⟨d, ed, pd⟩ := scale_ok h2 hf b2
  have hg : 0 < Nat.gcd n d := by
    rcases hp with h | h
    · exact Nat.gcd_pos_of_pos_left _ (pn h)
    · exact Nat.gcd_pos_of_pos_right _ (pd h)
  have hg' : ((Nat.gcd n d : Nat) : Rat) ≠ 0 := by exact_mod_cast hg.ne'
  refine ⟨⟨a.num / (Nat.gcd n d : Nat), a.den / (Nat.gcd n d : Nat)⟩, ?_, ?_, ?_⟩
  · simp only [simplify, en, ed, res_bind_ok, RUnit.divide, feq_zero hg']
    rfl
  · exact div_ne_zero hq.1 hg'
  · have := hq.2
    show q * (a.den / _ * md) = a.num / _ * mn
    field_simp
    linear_combination this

/-- C90 is false: 4/2 becomes 0.000002/0.000001, not 2/1. The divisor is that of the scaled numbers. -/
theorem C90_terms_counterexample : simplify 1000000 ⟨4, 2⟩ = .ok ⟨2 / 1000000, 1 / 1000000⟩ := by decide +kernel

/-- C90 is false for negative quantities (undefined: a negative number is converted to an unsigned type) and for numerator and denominator below the precision
(divides by zero, reported as such). -/
theorem C90_negative_counterexample : simplify 1000000 ⟨-4, 2⟩ = .error .ub ∧ simplify 1000000 ⟨1 / 10000000, 2 / 10000000⟩ = .error .exception := by decide +kernel

/-- C90, integers: quantities that are not negative are reduced to lowest terms. -/
theorem C90_int_partial {n d : Int} (hn : 0 ≤ n) (hd : 0 < d) (bn : n < 2 ^ 63) (bd : d < 2 ^ 63) :
    ∃ n' d', simplifyInt (n, d) = .ok (n', d') ∧ n * d' = n' * d ∧ Int.gcd n' d' = 1 ∧ 0 < d' := by
  have hg : 0 < Int.gcd n d := Int.gcd_pos_of_ne_zero_right _ hd.ne'
  have key : ∀ v : Int, 0 ≤ v → v < 2 ^ 63 → divideUnsigned v (Int.gcd n d) = .ok (v / (Int.gcd n d : Nat)) := by
    intro v h0 h1
    rw [divideUnsigned, if_neg hg.ne', Int.emod_eq_of_lt h0 (by omega)]
    have hg1 : (1 : Int) ≤ (Int.gcd n d : Nat) := by exact_mod_cast hg
    have l1 : 0 ≤ v / (Int.gcd n d : Nat) := Int.ediv_nonneg h0 (by omega)
    have l2 : v / (Int.gcd n d : Nat) ≤ v := Int.ediv_le_self _ h0
    rw [Int.bmod_eq_of_le (by omega) (by omega)]
  refine ⟨n / (Int.gcd n d : Nat), d / (Int.gcd n d : Nat), ?_, ?_, ?_, ?_⟩
  · rw [simplifyInt, if_neg (by simp only; omega)]
    simp only [key n hn bn, key d hd.le bd, res_bind_ok]
    rfl
  · rw [← Int.mul_ediv_assoc _ (Int.gcd_dvd_right ..), mul_comm, Int.mul_ediv_assoc _ (Int.gcd_dvd_left ..), mul_comm]
  · exact Int.gcd_ediv_gcd_ediv_gcd hg
  · exact Int.ediv_pos_of_pos_of_dvd hd (by omega) (Int.gcd_dvd_right ..)

/-- C90, integers: -4/2 becomes 9223372036854775806/1. -/
theorem C90_int_counterexample : simplifyInt (-4, 2) = .ok (9223372036854775806, 1) ∧ simplifyInt (6, 4) = .ok (3, 2) := by decide +kernel

/-- C90, integers: what happens to every negative quantity: one in lowest terms is left alone, every other one becomes a positive one. -/
theorem C90_int_negative_exact {n d : Int} (hn : n < 0) (hd : 0 < d) (bn : -2 ^ 63 < n) (bd : d < 2 ^ 63) :
    (Int.gcd n d = 1 → simplifyInt (n, d) = .ok (n, d)) ∧
      (Int.gcd n d ≠ 1 → ∃ n' d', simplifyInt (n, d) = .ok (n', d') ∧ n' = (2 ^ 64 + n) / (Int.gcd n d : Nat) ∧ d' = d / (Int.gcd n d : Nat) ∧ 0 < n' ∧ 0 < d') := by
  have hg : 0 < Int.gcd n d := Int.gcd_pos_of_ne_zero_right _ hd.ne'
  have e1 : n % 2 ^ 64 = 2 ^ 64 + n := by omega
  have e2 : d % 2 ^ 64 = d := by omega
  have hdg : 0 < d / (Int.gcd n d : Nat) := Int.ediv_pos_of_pos_of_dvd hd (by omega) (Int.gcd_dvd_right ..)
  have hdl : d / (Int.gcd n d : Nat) ≤ d := Int.ediv_le_self _ hd.le
  refine ⟨fun h => ?_, fun h => ?_⟩
  · have b1 : Int.bmod (2 ^ 64 + n) (2 ^ 64) = n := by
      rw [Int.bmod_def]; omega
    rw [simplifyInt, if_neg (by simp only; omega)]
    simp only [divideUnsigned, h, e1, e2]
    norm_num at b1 ⊢
    rw [b1, Int.bmod_eq_of_le (by omega) (by omega)]
    exact ⟨rfl, rfl⟩
  · have hg2 : (2 : Int) ≤ (Int.gcd n d : Nat) := by omega
    have hgd : ((Int.gcd n d : Nat) : Int) ≤ d := Int.le_of_dvd hd (Int.gcd_dvd_right ..)
    have l1 : 0 < (2 ^ 64 + n) / (Int.gcd n d : Nat) := by
      apply Int.lt_of_lt_of_le Int.zero_lt_one
      rw [Int.le_ediv_iff_mul_le (by omega)]
      omega
    have l2 : (2 ^ 64 + n) / (Int.gcd n d : Nat) < 2 ^ 63 := by
      apply Int.ediv_lt_of_lt_mul (by omega)
      nlinarith
    refine ⟨_, _, ?_, rfl, rfl, l1, hdg⟩
    rw [simplifyInt, if_neg (by simp only; omega)]
    simp only [divideUnsigned, if_neg hg.ne', e1, e2]
    rw [Int.bmod_eq_of_le (by omega) (by omega), Int.bmod_eq_of_le (by omega) (by omega)]
    rfl

example : Int.gcd (-3) 2 = 1 ∧ Int.gcd (-4) 2 = 2 := by decide +kernel

end Spine
