import Verif.Model.UnitProduct
import Verif.Props.RealArith
import Verif.Props.MixedTimes
/-!
# Property C181: products of units
-/

namespace Spine

open F32 RUnit

/-- C181: the raw value of a product is the product of the quantities, in squares of the unit of the left operand, up to seven units in 2^24, if neither the
converted operand nor the result is too large or too small for a normal `float`. -/
theorem C181_product {a b : Tag} {v w : Fl} (hv : v.fin = true) (hvo : v.Ok) (hw : w.fin = true) (hwo : w.Ok)
    (h : w.val = 0 ∨ pow2 (-125) ≤ |b.converted a w.val| ∧ |b.converted a w.val| ≤ 2 ^ 127)
    (hr : v.val = 0 ∨ w.val = 0 ∨
      pow2 (-125) ≤ |a.exact * v.val * (b.exact * w.val) / a.exact ^ 2| ∧ |a.exact * v.val * (b.exact * w.val) / a.exact ^ 2| ≤ 2 ^ 126) :
    (RUnit.mul a.magnitude b.magnitude v w).fin = true ∧
      |(RUnit.mul a.magnitude b.magnitude v w).val - a.exact * v.val * (b.exact * w.val) / a.exact ^ 2| ≤
        7 / 2 ^ 24 * |a.exact * v.val * (b.exact * w.val) / a.exact ^ 2| := by
  have a0 : 0 < a.exact := lt_of_lt_of_le (by norm_num) (exact_bounds a).1
  have hq : a.exact * v.val * (b.exact * w.val) / a.exact ^ 2 = v.val * b.converted a w.val := by rw [Tag.converted]; field_simp
  rw [hq] at hr ⊢
  obtain ⟨f1, e1⟩ := C104_convert (a := b) (b := a) hw hwo h
  have o1 := convert_ok (a := a) (b := b) hwo
  show (Fl.mul v (fromOther b.magnitude a.magnitude w)).fin = true ∧ |(Fl.mul v (fromOther b.magnitude a.magnitude w)).val - _| ≤ _
  set c := fromOther b.magnitude a.magnitude w with hc
  set C := b.converted a w.val with hC
  have close : |v.val * c.val - v.val * C| ≤ 5 / 2 ^ 24 * |v.val * C| := by
    rw [← mul_sub, abs_mul, abs_mul]
    calc |v.val| * |c.val - C| ≤ |v.val| * (5 / 2 ^ 24 * |C|) := mul_le_mul_of_nonneg_left e1 (abs_nonneg _)
      _ = _ := by ring
  have zero : v.val * C = 0 → (Fl.mul v c).fin = true ∧ |(Fl.mul v c).val - v.val * C| ≤ 7 / 2 ^ 24 * |v.val * C| := by
    intro h0
    rw [h0, abs_zero, mul_zero, sub_zero] at close
    have hz : v.val * c.val = 0 := abs_eq_zero.mp (le_antisymm close (abs_nonneg _))
    obtain ⟨k1, k2⟩ := Fl.mul_val hv f1 hvo o1 (by rw [hz, Fl.rnd_zero, abs_zero]; exact pow2_pos _)
    refine ⟨k1, ?_⟩
    rw [k2, hz, Fl.rnd_zero, h0]
    simp
  rcases hr with h0 | h0 | ⟨hl, hu⟩
  · exact zero (by rw [h0, zero_mul])
  · exact zero (by rw [hC, Tag.converted, h0]; simp)
  · set Q := v.val * C with hQ
    have hQ0 := abs_nonneg Q
    have t1 := abs_add_le (v.val * c.val - Q) Q
    rw [sub_add_cancel] at t1
    have t2 := abs_add_le (Q - v.val * c.val) (v.val * c.val)
    rw [sub_add_cancel, abs_sub_comm] at t2
    have hl' : pow2 (-126) ≤ |v.val * c.val| := by
      have e : pow2 (-125) = 2 * pow2 (-126) := by rw [pow2_eq, pow2_eq]; norm_num
      have := pow2_pos (-126)
      norm_num at *
      linarith
    have hre := rnd_err hl'
    have hb : |rnd (v.val * c.val)| < pow2 128 := by
      have h1 := abs_add_le (rnd (v.val * c.val) - v.val * c.val) (v.val * c.val)
      rw [sub_add_cancel] at h1
      rw [pow2_eq]
      norm_num at *
      linarith
    obtain ⟨k1, k2⟩ := Fl.mul_val hv f1 hvo o1 hb
    refine ⟨k1, ?_⟩
    rw [k2]
    have t3 := abs_add_le (rnd (v.val * c.val) - v.val * c.val) (v.val * c.val - Q)
    rw [sub_add_sub_cancel] at t3
    norm_num at *
    linarith

/-- 2 km times 3 m meet the hypotheses: they are 0.006 square kilometres. -/
example : pow2 (-125) ≤ |Tag.base.converted .kilo (Fl.ofRat 3).val| ∧ |Tag.base.converted .kilo (Fl.ofRat 3).val| ≤ 2 ^ 127 ∧
    Tag.kilo.exact * (Fl.ofRat 2).val * (Tag.base.exact * (Fl.ofRat 3).val) / Tag.kilo.exact ^ 2 = 6 / 1000 ∧
    pow2 (-125) ≤ (6 / 1000 : Rat) ∧ (6 / 1000 : Rat) ≤ 2 ^ 126 := by decide +kernel

/-- C181 (partial): in exact arithmetic the quantities that the two products `x * y` and `y * x` stand for, read as values of their type, are the same just for
operands with the same unit and for zeros.
Missing: the other operands (`C181_order_counterexample`). -/
theorem C181_order_partial (a b : Tag) (v w : Rat) :
    a.exact * RUnit.mul a.exact b.exact v w = b.exact * RUnit.mul b.exact a.exact w v ↔ a.exact = b.exact ∨ v = 0 ∨ w = 0 := by
  have a0 : 0 < a.exact := lt_of_lt_of_le (by norm_num) (exact_bounds a).1
  have b0 : 0 < b.exact := lt_of_lt_of_le (by norm_num) (exact_bounds b).1
  have e1 : a.exact * RUnit.mul a.exact b.exact v w = b.exact * (v * w) := by
    show a.exact * (v * (b.exact / a.exact * w)) = _
    field_simp
  have e2 : b.exact * RUnit.mul b.exact a.exact w v = a.exact * (v * w) := by
    show b.exact * (w * (a.exact / b.exact * v)) = _
    field_simp
  rw [e1, e2, mul_eq_mul_right_iff, mul_eq_zero, eq_comm]

/-- C181 (partial): converting the operands to another unit first multiplies the quantity by the ratio of the units: the result is an area, of which the type says that it is a
length, in exact arithmetic.
Missing: that it makes no difference, as for sums (`C181_order_counterexample`). -/
theorem C181_convert_partial (a b c : Tag) (v w : Rat) :
    c.exact * RUnit.mul c.exact b.exact (fromOther a.exact c.exact v) w * c.exact = a.exact * RUnit.mul a.exact b.exact v w * a.exact ∧
    (c.exact * RUnit.mul c.exact b.exact (fromOther a.exact c.exact v) w = a.exact * RUnit.mul a.exact b.exact v w ↔ a.exact = c.exact ∨ v = 0 ∨ w = 0) := by
  have a0 : 0 < a.exact := lt_of_lt_of_le (by norm_num) (exact_bounds a).1
  have b0 : 0 < b.exact := lt_of_lt_of_le (by norm_num) (exact_bounds b).1
  have c0 : 0 < c.exact := lt_of_lt_of_le (by norm_num) (exact_bounds c).1
  have e1 : a.exact * RUnit.mul a.exact b.exact v w = b.exact * (v * w) := by
    show a.exact * (v * (b.exact / a.exact * w)) = _
    field_simp
  have e2 : c.exact * RUnit.mul c.exact b.exact (fromOther a.exact c.exact v) w = a.exact / c.exact * (b.exact * (v * w)) := by
    show c.exact * (a.exact / c.exact * v * (b.exact / c.exact * w)) = _
    field_simp
  rw [e1, e2]
  refine ⟨by field_simp, ?_⟩
  constructor
  · intro h
    by_cases hz : v * w = 0
    · exact .inr (mul_eq_zero.mp hz)
    · left
      have hk : b.exact * (v * w) ≠ 0 := mul_ne_zero b0.ne' hz
      have : a.exact / c.exact = 1 := mul_right_cancel₀ hk (by rw [h, one_mul])
      rwa [div_eq_one_iff_eq c0.ne'] at this
  · rintro (h | h | h)
    · rw [h, div_self c0.ne', one_mul]
    · rw [h]; simp
    · rw [h]; simp

/-- C181 is false in general: 2 km times 3 m is a value of 0.006 km, which is 6 m, but 3 m times 2 km is 6000 m; and converting the 2 km to metres first gives 6000 m. -/
theorem C181_order_counterexample :
    RUnit.mul (F := Rat) Tag.kilo.exact Tag.base.exact 2 3 = 6 / 1000 ∧ Tag.kilo.exact * (6 / 1000) = 6 ∧
    RUnit.mul (F := Rat) Tag.base.exact Tag.kilo.exact 3 2 = 6000 ∧ RUnit.mul (F := Rat) Tag.base.exact Tag.base.exact (fromOther Tag.kilo.exact Tag.base.exact 2) 3 = 6000 ∧
    lt Tag.base.magnitude Tag.kilo.magnitude (RUnit.mul Tag.base.magnitude Tag.kilo.magnitude (Fl.ofRat 3) (Fl.ofRat 2))
      (RUnit.mul Tag.kilo.magnitude Tag.base.magnitude (Fl.ofRat 2) (Fl.ofRat 3)) = false ∧
    eq Tag.base.magnitude Tag.kilo.magnitude (RUnit.mul Tag.base.magnitude Tag.kilo.magnitude (Fl.ofRat 3) (Fl.ofRat 2))
      (RUnit.mul Tag.kilo.magnitude Tag.base.magnitude (Fl.ofRat 2) (Fl.ofRat 3)) = false := by
  decide +kernel

/-- C181 (partial): products of kernel times. If the right operand, in either unit, is at most 3,000,000, the raw value of a product is the left one times the nearest whole
number of the left unit to the right operand; in particular it is the product of the quantities, in squares of the left unit, if the right one is a whole number of the left
unit. A product that does not fit is undefined.
Missing: larger right operands, and the others, as in C124. -/
theorem C181_kernel_partial (mine other : Mag) {v w : Int} (hw : |w| ≤ 3000000) (hk : other.per mine * |(w : Rat)| ≤ 3000000) :
    ∃ r : Int, |(r : Rat) - other.amount mine w| ≤ 1 / 2 ∧ ((∃ k : Int, other.amount mine w = k) → (r : Rat) = other.amount mine w) ∧
      (InI64 (v * r) → KTime.mulTime mine other v w = .ok (v * r)) ∧ (¬InI64 (v * r) → KTime.mulTime mine other v w = .error .ub) := by
  obtain ⟨r, h1, h2⟩ := C32_nearest_partial other mine hw hk
  replace h1 : KTime.fromOther other mine w = .ok r := h1
  refine ⟨r, h2, ?_, fun h => ?_, fun h => ?_⟩
  · rintro ⟨k, hk⟩
    replace h2 : |(r : Rat) - other.amount mine w| ≤ 1 / 2 := h2
    rw [hk] at h2 ⊢
    have h3 : |((r - k : Int) : Rat)| < 1 := by push_cast; linarith
    have h4 : |r - k| < 1 := by exact_mod_cast h3
    have : r = k := by rw [abs_lt] at h4; omega
    rw [this]
  · rw [KTime.mulTime, h1, res_bind_ok]
    exact i64_ok h
  · rw [KTime.mulTime, h1, res_bind_ok]
    exact if_neg h

/-- 5 ms times 2 s are 10000 square milliseconds, 2 s times 5 ms are none at all. -/
example : KTime.mulTime .milli .base 5 2 = .ok 10000 ∧ KTime.mulTime .base .milli 2 5 = .ok 0 ∧ Mag.per .base .milli * |((2 : Int) : Rat)| ≤ 3000000 ∧
    KTime.mulTime .milli .milli (2 ^ 62) 2 = .error .ub := by decide +kernel

end Spine
