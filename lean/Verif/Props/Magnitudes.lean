import Verif.Spec.Prefixes
import Verif.Props.RealUnits
/-!
# C104, C105: conversion and comparison of real units of different magnitudes
-/

namespace Spine

open RUnit F32

/-- Rounding as a factor. -/
theorem rnd_rel {q : Rat} (h : pow2 (-126) ≤ |q|) : ∃ d : Rat, |d| ≤ 1 / 2 ^ 24 ∧ rnd q = q * (1 + d) := by
  have hq : q ≠ 0 := abs_pos.mp (lt_of_lt_of_le (pow2_pos _) h)
  refine ⟨(rnd q - q) / q, ?_, by field_simp; ring⟩
  rw [abs_div, div_le_iff₀ (abs_pos.mpr hq)]
  have := rnd_err h
  linarith

theorem magnitude_eq (t : Tag) : t.magnitude = Fl.ofRat t.exact := by
  cases t <;> decide +kernel

theorem exact_bounds (t : Tag) : 1 / 2 ^ 60 ≤ t.exact ∧ t.exact ≤ 2 ^ 60 := by
  cases t <;> (constructor <;> norm_num [Tag.exact, Tag.exponent])

/-- Four roundings, one of them in a denominator. -/
theorem four_roundings {d1 d2 d3 d4 : Rat} (h1 : |d1| ≤ 1 / 2 ^ 24) (h2 : |d2| ≤ 1 / 2 ^ 24) (h3 : |d3| ≤ 1 / 2 ^ 24) (h4 : |d4| ≤ 1 / 2 ^ 24) :
    |(1 + d1) * (1 + d3) * (1 + d4) / (1 + d2) - 1| ≤ 5 / 2 ^ 24 := by
  obtain ⟨l1, u1⟩ := abs_le.mp h1
  obtain ⟨l2, u2⟩ := abs_le.mp h2
  obtain ⟨l3, u3⟩ := abs_le.mp h3
  obtain ⟨l4, u4⟩ := abs_le.mp h4
  have p2 : 0 < 1 + d2 := by norm_num at l2 ⊢; linarith
  have up : (1 + d1) * (1 + d3) * (1 + d4) ≤ (1 + 1 / 2 ^ 24) * (1 + 1 / 2 ^ 24) * (1 + 1 / 2 ^ 24) := by
    refine mul_le_mul (mul_le_mul ?_ ?_ ?_ ?_) ?_ ?_ ?_ <;> first | positivity | (norm_num at *; linarith)
  have lo : (1 - 1 / 2 ^ 24) * (1 - 1 / 2 ^ 24) * (1 - 1 / 2 ^ 24) ≤ (1 + d1) * (1 + d3) * (1 + d4) := by
    have q1 : (0 : Rat) ≤ 1 + d1 := by norm_num at l1 ⊢; linarith
    have q3 : (0 : Rat) ≤ 1 + d3 := by norm_num at l3 ⊢; linarith
    refine mul_le_mul (mul_le_mul ?_ ?_ ?_ q1) ?_ ?_ (mul_nonneg q1 q3) <;> norm_num at * <;> linarith
  rw [abs_le]
  constructor
  · rw [le_sub_iff_add_le, le_div_iff₀ p2]
    refine le_trans ?_ lo
    norm_num at *
    linarith
  · rw [sub_le_iff_le_add, div_le_iff₀ p2]
    refine up.trans ?_
    norm_num at *
    linarith

theorem ofRat_exact (t : Tag) : ∃ d : Rat, |d| ≤ 1 / 2 ^ 24 ∧ t.magnitude.fin = true ∧ t.magnitude.Ok ∧ t.magnitude.val = t.exact * (1 + d) := by
  obtain ⟨h1, h2⟩ := exact_bounds t
  have h0 : 0 < t.exact := lt_of_lt_of_le (by norm_num) h1
  obtain ⟨d, hd, e⟩ := rnd_rel (q := t.exact) (by rw [abs_of_pos h0, pow2_eq]; refine le_trans ?_ h1; norm_num)
  have hb : |rnd t.exact| < pow2 128 := by
    rw [e, abs_mul, abs_of_pos h0, pow2_eq]
    have : |1 + d| ≤ 2 := by rw [abs_le]; obtain ⟨a, b⟩ := abs_le.mp hd; norm_num at a b; constructor <;> linarith
    calc t.exact * |1 + d| ≤ 2 ^ 60 * 2 := mul_le_mul h2 this (abs_nonneg _) (by norm_num)
      _ < (2 : Rat) ^ (128 : Int) := by norm_num
  rw [magnitude_eq]
  exact ⟨d, hd, (Fl.ofRat_val hb).1, Fl.ofRat_ok _, by rw [(Fl.ofRat_val hb).2, e]⟩

/-- C104: converting a value from a unit to another gives the exact result up to a relative error of five units in 2^24, if the result is neither too large
nor too small for a normal `float`. -/
theorem C104_convert {a b : Tag} {v : Fl} (hf : v.fin = true) (ho : v.Ok)
    (h : v.val = 0 ∨ pow2 (-125) ≤ |a.converted b v.val| ∧ |a.converted b v.val| ≤ 2 ^ 127) :
    (fromOther a.magnitude b.magnitude v).fin = true ∧
      |(fromOther a.magnitude b.magnitude v).val - a.converted b v.val| ≤ 5 / 2 ^ 24 * |a.converted b v.val| := by
  obtain ⟨d1, h1, af, ao, ae⟩ := ofRat_exact a
  obtain ⟨d2, h2, bf, bo, be⟩ := ofRat_exact b
  obtain ⟨a1, a2⟩ := exact_bounds a
  obtain ⟨b1, b2⟩ := exact_bounds b
  have a0 : 0 < a.exact := lt_of_lt_of_le (by norm_num) a1
  have b0 : 0 < b.exact := lt_of_lt_of_le (by norm_num) b1
  obtain ⟨l1, u1⟩ := abs_le.mp h1
  obtain ⟨l2, u2⟩ := abs_le.mp h2
  norm_num at l1 u1 l2 u2
  have p1 : 0 < 1 + d1 := by linarith
  have p2 : 0 < 1 + d2 := by linarith
  have A0 : 0 < a.magnitude.val := by rw [ae]; positivity
  have B0 : 0 < b.magnitude.val := by rw [be]; positivity
  have A1 : 1 / 2 ^ 61 ≤ a.magnitude.val := by
    rw [ae]
    calc (1 : Rat) / 2 ^ 61 = 1 / 2 ^ 60 * (1 / 2) := by norm_num
      _ ≤ _ := mul_le_mul a1 (by linarith) (by norm_num) a0.le
  have A2 : a.magnitude.val ≤ 2 ^ 61 := by
    rw [ae]
    calc a.exact * (1 + d1) ≤ 2 ^ 60 * 2 := mul_le_mul a2 (by linarith) p1.le (by norm_num)
      _ = _ := by norm_num
  have B1 : 1 / 2 ^ 61 ≤ b.magnitude.val := by
    rw [be]
    calc (1 : Rat) / 2 ^ 61 = 1 / 2 ^ 60 * (1 / 2) := by norm_num
      _ ≤ _ := mul_le_mul b1 (by linarith) (by norm_num) b0.le
  have B2 : b.magnitude.val ≤ 2 ^ 61 := by
    rw [be]
    calc b.exact * (1 + d2) ≤ 2 ^ 60 * 2 := mul_le_mul b2 (by linarith) p2.le (by norm_num)
      _ = _ := by norm_num
  have q0 : 0 < a.magnitude.val / b.magnitude.val := div_pos A0 B0
  have q1 : pow2 (-126) ≤ a.magnitude.val / b.magnitude.val := by
    rw [le_div_iff₀ B0, pow2_eq]
    calc (2 : Rat) ^ (-126 : Int) * b.magnitude.val ≤ 2 ^ (-126 : Int) * 2 ^ 61 := mul_le_mul_of_nonneg_left B2 (by norm_num)
      _ ≤ 1 / 2 ^ 61 := by norm_num
      _ ≤ _ := A1
  have q2 : a.magnitude.val / b.magnitude.val ≤ 2 ^ 122 := by
    rw [div_le_iff₀ B0]
    calc a.magnitude.val ≤ 2 ^ 61 := A2
      _ = 2 ^ 122 * (1 / 2 ^ 61) := by norm_num
      _ ≤ _ := mul_le_mul_of_nonneg_left B1 (by norm_num)
  obtain ⟨d3, h3, e3⟩ := rnd_rel (q := a.magnitude.val / b.magnitude.val) (by rwa [abs_of_pos q0])
  obtain ⟨l3, u3⟩ := abs_le.mp h3
  norm_num at l3 u3
  have p3 : 0 < 1 + d3 := by linarith
  have hr : |rnd (a.magnitude.val / b.magnitude.val)| < pow2 128 := by
    rw [e3, abs_of_pos (mul_pos q0 p3), pow2_eq]
    calc a.magnitude.val / b.magnitude.val * (1 + d3) ≤ 2 ^ 122 * 2 := mul_le_mul q2 (by linarith) p3.le (by norm_num)
      _ < _ := by norm_num
  obtain ⟨rf, re⟩ := Fl.div_val af bf ao bo B0.ne' hr
  have ro := Fl.div_ok ao bo
  have key : a.magnitude.val / b.magnitude.val * (1 + d3) * v.val = a.converted b v.val * ((1 + d1) * (1 + d3) / (1 + d2)) := by
    rw [ae, be, Tag.converted]
    field_simp
  rw [e3] at re
  have hprod : (Fl.div a.magnitude b.magnitude).val * v.val = a.converted b v.val * ((1 + d1) * (1 + d3) / (1 + d2)) := by rw [re, key]
  have fe : fromOther a.magnitude b.magnitude v = Fl.mul (Fl.div a.magnitude b.magnitude) v := rfl
  rw [fe]
  rcases h with h0 | ⟨hl, hu⟩
  · have z : a.converted b v.val = 0 := by rw [Tag.converted, h0]; simp
    have hz : |rnd ((Fl.div a.magnitude b.magnitude).val * v.val)| < pow2 128 := by
      rw [h0, mul_zero, Fl.rnd_zero, abs_zero]; exact pow2_pos _
    obtain ⟨m1, m2⟩ := Fl.mul_val rf hf ro ho hz
    refine ⟨m1, ?_⟩
    rw [m2, z, h0, mul_zero, Fl.rnd_zero]
    simp
  · have E0 : 0 < |a.converted b v.val| := lt_of_lt_of_le (pow2_pos _) hl
    have k0 : 0 < (1 + d1) * (1 + d3) / (1 + d2) := by positivity
    have k1 : 1 / 2 ≤ (1 + d1) * (1 + d3) / (1 + d2) := by
      rw [le_div_iff₀ p2]
      nlinarith
    have k2 : (1 + d1) * (1 + d3) / (1 + d2) ≤ 1 + 4 / 2 ^ 24 := by
      rw [div_le_iff₀ p2]
      have : (1 + d1) * (1 + d3) ≤ (1 + 1 / 2 ^ 24) * (1 + 1 / 2 ^ 24) := mul_le_mul (by norm_num; linarith) (by norm_num; linarith) p3.le (by norm_num)
      refine this.trans ?_
      norm_num
      linarith
    have hl' : pow2 (-126) ≤ |(Fl.div a.magnitude b.magnitude).val * v.val| := by
      rw [hprod, abs_mul, abs_of_pos k0]
      have e : pow2 (-125) = 2 * pow2 (-126) := by rw [pow2_eq, pow2_eq]; norm_num
      calc pow2 (-126) = pow2 (-125) * (1 / 2) := by rw [e]; ring
        _ ≤ _ := mul_le_mul hl k1 (by norm_num) E0.le
    obtain ⟨d4, h4, e4⟩ := rnd_rel hl'
    obtain ⟨l4, u4⟩ := abs_le.mp h4
    norm_num at l4 u4
    have e5 : rnd ((Fl.div a.magnitude b.magnitude).val * v.val) = a.converted b v.val * ((1 + d1) * (1 + d3) * (1 + d4) / (1 + d2)) := by
      rw [e4, hprod]; ring
    have fr := four_roundings h1 h2 h3 h4
    have hb : |rnd ((Fl.div a.magnitude b.magnitude).val * v.val)| < pow2 128 := by
      rw [e5, abs_mul, pow2_eq]
      have : |(1 + d1) * (1 + d3) * (1 + d4) / (1 + d2)| ≤ 1 + 5 / 2 ^ 24 := by
        have := abs_add_le ((1 + d1) * (1 + d3) * (1 + d4) / (1 + d2) - 1) 1
        rw [sub_add_cancel, abs_one] at this
        linarith
      calc _ ≤ (2 : Rat) ^ 127 * (1 + 5 / 2 ^ 24) := mul_le_mul hu this (abs_nonneg _) (by norm_num)
        _ < _ := by norm_num
    obtain ⟨m1, m2⟩ := Fl.mul_val rf hf ro ho hb
    refine ⟨m1, ?_⟩
    rw [m2, e5]
    have : a.converted b v.val * ((1 + d1) * (1 + d3) * (1 + d4) / (1 + d2)) - a.converted b v.val
        = ((1 + d1) * (1 + d3) * (1 + d4) / (1 + d2) - 1) * a.converted b v.val := by ring
    rw [this, abs_mul]
    exact mul_le_mul_of_nonneg_right fr (abs_nonneg _)

/-- 2.5 km are 2500000 mm, 3 hours are 10800000 ms, and 7 pF are 0.007 nF, up to the bound. -/
example : pow2 (-125) ≤ |Tag.kilo.converted .milli (Fl.ofRat (5 / 2)).val| ∧ |Tag.kilo.converted .milli (Fl.ofRat (5 / 2)).val| ≤ 2 ^ 127 ∧
    Tag.kilo.converted .milli (Fl.ofRat (5 / 2)).val = 2500000 ∧ Tag.hour.converted .milli 3 = 10800000 ∧ Tag.pico.converted .nano 7 = 7 / 1000 := by
  decide +kernel

theorem converted_back (a b : Tag) (v : Rat) : b.converted a (a.converted b v) = v := by
  have a0 : a.exact ≠ 0 := (lt_of_lt_of_le (by norm_num) (exact_bounds a).1).ne'
  have b0 : b.exact ≠ 0 := (lt_of_lt_of_le (by norm_num) (exact_bounds b).1).ne'
  rw [Tag.converted, Tag.converted]
  field_simp

/-- C104: converting to another unit and back gives the value up to a relative error of eleven units in 2^24. -/
theorem C104_back {a b : Tag} {v : Fl} (hf : v.fin = true) (ho : v.Ok) (h : pow2 (-125) ≤ |a.converted b v.val| ∧ |a.converted b v.val| ≤ 2 ^ 127)
    (hv : pow2 (-124) ≤ |v.val| ∧ |v.val| ≤ 2 ^ 126) :
    (fromOther b.magnitude a.magnitude (fromOther a.magnitude b.magnitude v)).fin = true ∧
      |(fromOther b.magnitude a.magnitude (fromOther a.magnitude b.magnitude v)).val - v.val| ≤ 11 / 2 ^ 24 * |v.val| := by
  obtain ⟨f1, e1⟩ := C104_convert hf ho (.inr h)
  have o1 : (fromOther a.magnitude b.magnitude v).Ok := by
    rw [magnitude_eq, magnitude_eq]
    exact Fl.mul_ok (Fl.div_ok (Fl.ofRat_ok _) (Fl.ofRat_ok _)) ho
  have a0 : 0 < a.exact := lt_of_lt_of_le (by norm_num) (exact_bounds a).1
  have b0 : 0 < b.exact := lt_of_lt_of_le (by norm_num) (exact_bounds b).1
  obtain ⟨w, hw⟩ : ∃ w, w = (fromOther a.magnitude b.magnitude v).val := ⟨_, rfl⟩
  rw [← hw] at e1
  have lin : b.converted a w - v.val = b.exact / a.exact * (w - a.converted b v.val) := by
    rw [Tag.converted, Tag.converted]
    field_simp
  have close : |b.converted a w - v.val| ≤ 5 / 2 ^ 24 * |v.val| := by
    rw [lin, abs_mul, abs_of_pos (div_pos b0 a0)]
    calc b.exact / a.exact * |w - a.converted b v.val| ≤ b.exact / a.exact * (5 / 2 ^ 24 * |a.converted b v.val|) :=
          mul_le_mul_of_nonneg_left e1 (div_pos b0 a0).le
      _ = 5 / 2 ^ 24 * |v.val| := by
          rw [Tag.converted, abs_div, abs_mul, abs_of_pos a0, abs_of_pos b0]
          field_simp
  have lo : |v.val| * (1 - 5 / 2 ^ 24) ≤ |b.converted a w| := by
    have := abs_sub_abs_le_abs_sub v.val (b.converted a w)
    rw [abs_sub_comm] at this
    linarith
  have hi : |b.converted a w| ≤ |v.val| * (1 + 5 / 2 ^ 24) := by
    have := abs_sub_abs_le_abs_sub (b.converted a w) v.val
    linarith
  have e125 : pow2 (-124) = 2 * pow2 (-125) := by rw [pow2_eq, pow2_eq]; norm_num
  have p125 := pow2_pos (-125)
  have r : pow2 (-125) ≤ |b.converted a w| ∧ |b.converted a w| ≤ 2 ^ 127 := by
    constructor
    · refine le_trans ?_ lo
      have := hv.1
      rw [e125] at this
      norm_num
      linarith
    · refine hi.trans ?_
      have := hv.2
      norm_num at this ⊢
      linarith
  rw [hw] at r
  obtain ⟨f2, e2⟩ := C104_convert f1 o1 (.inr r)
  refine ⟨f2, ?_⟩
  rw [← hw] at e2
  have t := abs_sub_le (fromOther b.magnitude a.magnitude (fromOther a.magnitude b.magnitude v)).val (b.converted a w) v.val
  have hv0 := abs_nonneg v.val
  norm_num at *
  linarith

/-- The hypotheses of `C104_back` hold for 2.5 km in mm. -/
example : (Fl.ofRat (5 / 2)).fin = true ∧ pow2 (-125) ≤ |Tag.kilo.converted .milli (Fl.ofRat (5 / 2)).val| ∧
    |Tag.kilo.converted .milli (Fl.ofRat (5 / 2)).val| ≤ 2 ^ 127 ∧ pow2 (-124) ≤ |(Fl.ofRat (5 / 2)).val| ∧ |(Fl.ofRat (5 / 2)).val| ≤ 2 ^ 126 := by
  decide +kernel

/-! ## C105: comparison -/

/-- C105: two values of different units compare like the quantities, if these differ by more than five units in 2^24 of the second one. Missing: closer
ones (`C105_order_counterexample`). -/
theorem C105_order_partial {a b : Tag} {v w : Fl} (hv : v.fin = true) (hf : w.fin = true) (ho : w.Ok)
    (h : w.val = 0 ∨ pow2 (-125) ≤ |b.converted a w.val| ∧ |b.converted a w.val| ≤ 2 ^ 127)
    (hd : 5 / 2 ^ 24 * (b.exact * |w.val|) < |a.exact * v.val - b.exact * w.val|) :
    (lt a.magnitude b.magnitude v w = true ↔ a.exact * v.val < b.exact * w.val) ∧
      (gt a.magnitude b.magnitude v w = true ↔ b.exact * w.val < a.exact * v.val) ∧
      (le a.magnitude b.magnitude v w = true ↔ a.exact * v.val ≤ b.exact * w.val) ∧
      (ge a.magnitude b.magnitude v w = true ↔ b.exact * w.val ≤ a.exact * v.val) := by
  obtain ⟨f1, e1⟩ := C104_convert hf ho h
  have a0 : 0 < a.exact := lt_of_lt_of_le (by norm_num) (exact_bounds a).1
  have b0 : 0 < b.exact := lt_of_lt_of_le (by norm_num) (exact_bounds b).1
  obtain ⟨c, hc⟩ : ∃ c, c = (fromOther b.magnitude a.magnitude w).val := ⟨_, rfl⟩
  rw [← hc] at e1
  have e2 : |a.exact * c - b.exact * w.val| ≤ 5 / 2 ^ 24 * (b.exact * |w.val|) := by
    have l : a.exact * c - b.exact * w.val = a.exact * (c - b.converted a w.val) := by rw [Tag.converted]; field_simp
    rw [l, abs_mul, abs_of_pos a0]
    calc a.exact * |c - b.converted a w.val| ≤ a.exact * (5 / 2 ^ 24 * |b.converted a w.val|) := mul_le_mul_of_nonneg_left e1 a0.le
      _ = _ := by rw [Tag.converted, abs_div, abs_mul, abs_of_pos a0, abs_of_pos b0]; field_simp
  obtain ⟨e3, e4⟩ := abs_le.mp e2
  have L : lt a.magnitude b.magnitude v w = true ↔ v.val < c := by rw [hc]; exact Fl.lt_iff hv f1
  have G : gt a.magnitude b.magnitude v w = true ↔ c < v.val := by rw [hc]; exact Fl.lt_iff f1 hv
  have L' : le a.magnitude b.magnitude v w = true ↔ v.val ≤ c := by rw [hc]; exact Fl.le_iff hv f1
  have G' : ge a.magnitude b.magnitude v w = true ↔ c ≤ v.val := by rw [hc]; exact Fl.le_iff f1 hv
  have m1 : v.val < c ↔ a.exact * v.val < a.exact * c := (mul_lt_mul_iff_right₀ a0).symm
  have m2 : c < v.val ↔ a.exact * c < a.exact * v.val := (mul_lt_mul_iff_right₀ a0).symm
  rw [L, G, L', G', ← not_lt (a := c), ← not_lt (a := v.val), m1, m2]
  rcases lt_abs.mp hd with hd | hd
  · refine ⟨⟨fun _ => by linarith, fun _ => by linarith⟩, ⟨fun _ => by linarith, fun _ => by linarith⟩, ⟨fun n => ?_, fun _ => ?_⟩,
      ⟨fun _ => by linarith, fun _ => by rw [not_lt]; linarith⟩⟩
    · exact absurd (by linarith) n
    · exfalso; linarith
  · refine ⟨⟨fun _ => by linarith, fun _ => by linarith⟩, ⟨fun _ => by linarith, fun _ => by linarith⟩,
      ⟨fun _ => by linarith, fun _ => by rw [not_lt]; linarith⟩, ⟨fun n => ?_, fun _ => ?_⟩⟩
    · exact absurd (by linarith) n
    · exfalso; linarith

/-- 999 ms and 1 s meet the hypotheses, and so do -1 km and 3 mm. -/
example : 5 / 2 ^ 24 * (Tag.base.exact * |(Fl.ofRat 1).val|) < |Tag.milli.exact * (Fl.ofRat 999).val - Tag.base.exact * (Fl.ofRat 1).val| ∧
    pow2 (-125) ≤ |Tag.base.converted .milli (Fl.ofRat 1).val| ∧ |Tag.base.converted .milli (Fl.ofRat 1).val| ≤ 2 ^ 127 ∧
    5 / 2 ^ 24 * (Tag.milli.exact * |(Fl.ofRat 3).val|) < |Tag.kilo.exact * (Fl.ofRat (-1)).val - Tag.milli.exact * (Fl.ofRat 3).val| := by
  decide +kernel

/-- C105 is false for equal quantities: `time_ms(1000) > time_s(1)`, and not `time_ms(1000) <= time_s(1)`. -/
theorem C105_order_counterexample : gt Tag.milli.magnitude Tag.base.magnitude (Fl.ofRat 1000) (Fl.ofRat 1) = true ∧
    le Tag.milli.magnitude Tag.base.magnitude (Fl.ofRat 1000) (Fl.ofRat 1) = false ∧ Tag.milli.exact * 1000 = Tag.base.exact * 1 := by
  decide +kernel

end Spine
