import Verif.Props.Magnitudes
import Verif.Props.RealUnits
/-!
# C131: arithmetic and equality of real units with different prefixes
-/

namespace Spine

open F32 RUnit

/-- Adding two floats: a small sum is exact. -/
theorem rnd_sum {x y : Rat} (hx : rnd x = x) (hy : rnd y = y) : |rnd (x + y) - (x + y)| ≤ |x + y| / 2 ^ 24 := by
  by_cases h : pow2 (-126) ≤ |x + y|
  · exact rnd_err h
  · have onGrid : ∀ z : Rat, rnd z = z → ∃ k : Int, z = k * pow2 (-149) := by
      intro z hz
      obtain ⟨m, e, _, he, hr⟩ := rnd_form z
      rw [hz] at hr
      obtain ⟨n, hn⟩ : ∃ n : Nat, e = n + (-149) := ⟨(e + 149).toNat, by omega⟩
      refine ⟨m * 2 ^ n, ?_⟩
      rw [hr, hn, pow2_add, pow2_nat]
      push_cast
      ring
    obtain ⟨k, hk⟩ := onGrid x hx
    obtain ⟨l, hl⟩ := onGrid y hy
    have hs : x + y = ((k + l : Int) : Rat) * pow2 (-149) := by rw [hk, hl]; push_cast; ring
    have hb : |((k + l : Int) : Rat)| < 2 ^ 23 := by
      have h' := not_le.mp h
      have e : pow2 (-126) = 2 ^ 23 * pow2 (-149) := by rw [pow2_eq, pow2_eq]; norm_num
      rw [hs, abs_mul, abs_of_pos (pow2_pos _), e] at h'
      exact lt_of_mul_lt_mul_right h' (pow2_pos _).le
    have hb' : |k + l| < 2 ^ 24 := by
      have : ((|k + l| : Int) : Rat) < ((2 ^ 24 : Int) : Rat) := by push_cast at hb ⊢; linarith
      exact_mod_cast this
    rw [hs, rnd_exact_lt hb' (le_refl _), sub_self, abs_zero]
    positivity

theorem convert_ok {a b : Tag} {w : Fl} (ho : w.Ok) : (fromOther b.magnitude a.magnitude w).Ok := by
  rw [magnitude_eq, magnitude_eq]
  exact Fl.mul_ok (Fl.div_ok (Fl.ofRat_ok _) (Fl.ofRat_ok _)) ho

/-- A sum of two moderate floats. -/
theorem add_close {x y : Fl} (hx : x.fin = true) (hy : y.fin = true) (hxo : x.Ok) (hyo : y.Ok) (h : |x.val| + |y.val| ≤ 2 ^ 127) :
    (Fl.add x y).fin = true ∧ |(Fl.add x y).val - (x.val + y.val)| ≤ |x.val + y.val| / 2 ^ 24 := by
  have he := rnd_sum hxo.rnd_val hyo.rnd_val
  have ht := abs_add_le x.val y.val
  have hb : |rnd (x.val + y.val)| < pow2 128 := by
    have h1 := abs_add_le (rnd (x.val + y.val) - (x.val + y.val)) (x.val + y.val)
    rw [sub_add_cancel] at h1
    rw [pow2_eq]
    have h2 : |x.val + y.val| / 2 ^ 24 ≤ |x.val + y.val| / 2 := by
      apply div_le_div_of_nonneg_left (abs_nonneg _) <;> norm_num
    calc |rnd (x.val + y.val)| ≤ 2 ^ 127 / 2 + 2 ^ 127 := by linarith
      _ < _ := by norm_num
  obtain ⟨h1, h2⟩ := Fl.add_val hx hy hb
  exact ⟨h1, by rw [h2]; exact he⟩

/-- C131: a sum of two values of different units is the sum of the quantities, in the unit of the left one, up to seven units in 2^24 of the sum of their sizes, if the
converted value is neither too large nor too small for a normal `float`. -/
theorem C131_sum {a b : Tag} {v w : Fl} (hv : v.fin = true) (hvo : v.Ok) (hw : w.fin = true) (hwo : w.Ok)
    (h : w.val = 0 ∨ pow2 (-125) ≤ |b.converted a w.val| ∧ |b.converted a w.val| ≤ 2 ^ 125) (hb : |v.val| ≤ 2 ^ 125) :
    (add a.magnitude b.magnitude v w).fin = true ∧
      |(add a.magnitude b.magnitude v w).val - (v.val + b.converted a w.val)| ≤ 7 / 2 ^ 24 * (|v.val| + |b.converted a w.val|) := by
  have h' : w.val = 0 ∨ pow2 (-125) ≤ |b.converted a w.val| ∧ |b.converted a w.val| ≤ 2 ^ 127 :=
    h.imp id fun h => ⟨h.1, h.2.trans (by norm_num)⟩
  have hC : |b.converted a w.val| ≤ 2 ^ 125 := by
    rcases h with h | h
    · rw [Tag.converted, h]; norm_num
    · exact h.2
  obtain ⟨f1, e1⟩ := C104_convert hw hwo h'
  have o1 := convert_ok (a := a) (b := b) hwo
  show (Fl.add v (fromOther b.magnitude a.magnitude w)).fin = true ∧ |(Fl.add v (fromOther b.magnitude a.magnitude w)).val - _| ≤ _
  set c := fromOther b.magnitude a.magnitude w with hc
  set C := b.converted a w.val with hCdef
  have hcb : |c.val| ≤ |C| + 5 / 2 ^ 24 * |C| := by
    have := abs_add_le (c.val - C) C
    rw [sub_add_cancel] at this
    linarith
  have hC0 := abs_nonneg C
  have hsum : |v.val| + |c.val| ≤ 2 ^ 127 := by norm_num at *; linarith
  obtain ⟨k1, k2⟩ := add_close hv f1 hvo o1 hsum
  refine ⟨k1, ?_⟩
  have t1 := abs_add_le ((Fl.add v c).val - (v.val + c.val)) (c.val - C)
  have t2 : (Fl.add v c).val - (v.val + c.val) + (c.val - C) = (Fl.add v c).val - (v.val + C) := by ring
  rw [t2] at t1
  have t3 := abs_add_le v.val c.val
  have hv0 := abs_nonneg v.val
  norm_num at *
  linarith [abs_nonneg C, abs_nonneg v.val]

/-- C131: a difference, likewise. -/
theorem C131_difference {a b : Tag} {v w : Fl} (hv : v.fin = true) (hvo : v.Ok) (hw : w.fin = true) (hwo : w.Ok)
    (h : w.val = 0 ∨ pow2 (-125) ≤ |b.converted a w.val| ∧ |b.converted a w.val| ≤ 2 ^ 125) (hb : |v.val| ≤ 2 ^ 125) :
    (sub a.magnitude b.magnitude v w).fin = true ∧
      |(sub a.magnitude b.magnitude v w).val - (v.val - b.converted a w.val)| ≤ 7 / 2 ^ 24 * (|v.val| + |b.converted a w.val|) := by
  have h' : w.val = 0 ∨ pow2 (-125) ≤ |b.converted a w.val| ∧ |b.converted a w.val| ≤ 2 ^ 127 :=
    h.imp id fun h => ⟨h.1, h.2.trans (by norm_num)⟩
  have hC : |b.converted a w.val| ≤ 2 ^ 125 := by
    rcases h with h | h
    · rw [Tag.converted, h]; norm_num
    · exact h.2
  obtain ⟨f1, e1⟩ := C104_convert hw hwo h'
  have o1 := convert_ok (a := a) (b := b) hwo
  show (Fl.add v (fromOther b.magnitude a.magnitude w).neg).fin = true ∧ |(Fl.add v (fromOther b.magnitude a.magnitude w).neg).val - _| ≤ _
  set c := fromOther b.magnitude a.magnitude w with hc
  set C := b.converted a w.val with hCdef
  obtain ⟨n1, n2⟩ := Fl.neg_val c
  have hcb : |c.val| ≤ |C| + 5 / 2 ^ 24 * |C| := by
    have := abs_add_le (c.val - C) C
    rw [sub_add_cancel] at this
    linarith
  have hC0 := abs_nonneg C
  have hsum : |v.val| + |c.neg.val| ≤ 2 ^ 127 := by rw [n1, abs_neg]; norm_num at *; linarith
  obtain ⟨k1, k2⟩ := add_close hv (n2.trans f1) hvo (Fl.neg_ok o1) hsum
  refine ⟨k1, ?_⟩
  rw [n1] at k2
  have e1' : |C - c.val| ≤ 5 / 2 ^ 24 * |C| := by rw [abs_sub_comm]; exact e1
  have t1 := abs_add_le ((Fl.add v c.neg).val - (v.val + -c.val)) (C - c.val)
  have t2 : (Fl.add v c.neg).val - (v.val + -c.val) + (C - c.val) = (Fl.add v c.neg).val - (v.val - C) := by ring
  rw [t2] at t1
  have t3 := abs_add_le v.val (-c.val)
  rw [abs_neg] at t3
  have hv0 := abs_nonneg v.val
  norm_num at *
  linarith [abs_nonneg C, abs_nonneg v.val]

/-- 2.5 km and 300 m meet the hypotheses. -/
example : |(Fl.ofRat (5 / 2)).val| ≤ 2 ^ 125 ∧ pow2 (-125) ≤ |Tag.base.converted .kilo (Fl.ofRat 300).val| ∧ |Tag.base.converted .kilo (Fl.ofRat 300).val| ≤ 2 ^ 125 ∧
    Tag.base.converted .kilo (Fl.ofRat 300).val = 3 / 10 := by decide +kernel

/-- C131 (partial): equality says that the quantities differ by at most eight units in 2^24 of the larger one, and `!=` is its opposite: it holds of all quantities further apart.
Missing: that equal quantities are equal (`C131_equal_counterexample`). -/
theorem C131_equal_partial {a b : Tag} {v w : Fl} (hv : v.fin = true) (hvo : v.Ok) (hw : w.fin = true) (hwo : w.Ok)
    (h : pow2 (-100) ≤ |b.converted a w.val| ∧ |b.converted a w.val| ≤ 2 ^ 125) (hb : |v.val| ≤ 2 ^ 125) :
    (eq a.magnitude b.magnitude v w = true → |a.exact * v.val - b.exact * w.val| ≤ 8 / 2 ^ 24 * max (a.exact * |v.val|) (b.exact * |w.val|)) ∧
      (8 / 2 ^ 24 * max (a.exact * |v.val|) (b.exact * |w.val|) < |a.exact * v.val - b.exact * w.val| → ne a.magnitude b.magnitude v w = true) := by
  have key : eq a.magnitude b.magnitude v w = true → |a.exact * v.val - b.exact * w.val| ≤ 8 / 2 ^ 24 * max (a.exact * |v.val|) (b.exact * |w.val|) := by
    intro he
    have a0 : 0 < a.exact := lt_of_lt_of_le (by norm_num) (exact_bounds a).1
    have b0 : 0 < b.exact := lt_of_lt_of_le (by norm_num) (exact_bounds b).1
    have hp : pow2 (-125) ≤ pow2 (-100) := pow2_mono (by norm_num)
    obtain ⟨f1, e1⟩ := C104_convert (a := b) (b := a) hw hwo (.inr ⟨hp.trans h.1, h.2.trans (by norm_num)⟩)
    have o1 := convert_ok (a := a) (b := b) hwo
    have he' : approxEq v (fromOther b.magnitude a.magnitude w) = true := he
    set c := fromOther b.magnitude a.magnitude w with hc
    set C := b.converted a w.val with hCdef
    have hC0 := abs_nonneg C
    have hv0 := abs_nonneg v.val
    have hcb : |c.val| ≤ |C| + 5 / 2 ^ 24 * |C| := by
      have := abs_add_le (c.val - C) C
      rw [sub_add_cancel] at this
      linarith
    have hcl : |C| - 5 / 2 ^ 24 * |C| ≤ |c.val| := by
      have := abs_add_le (C - c.val) c.val
      rw [sub_add_cancel, abs_sub_comm] at this
      linarith
    have hnc : rnd (-c.val) = -c.val := by rw [rnd_neg, o1.rnd_val]
    have hs := rnd_sum hvo.rnd_val hnc
    rw [← sub_eq_add_neg] at hs
    have hd0 := abs_nonneg (v.val - c.val)
    have htri : |v.val - c.val| ≤ |v.val| + |c.val| := abs_sub _ _
    have hdb : |rnd (v.val - c.val)| < pow2 128 := by
      have h1 := abs_add_le (rnd (v.val - c.val) - (v.val - c.val)) (v.val - c.val)
      rw [sub_add_cancel] at h1
      rw [pow2_eq]
      norm_num at *
      linarith
    rw [approxEq_iff hv f1 hvo o1 hdb] at he'
    set M := max |v.val| |c.val| with hM
    have hMc : |c.val| ≤ M := le_max_right _ _
    have hMn : pow2 (-126) ≤ |1 / 2 ^ 23 * M| := by
      have hM0 : 0 ≤ M := (abs_nonneg _).trans hMc
      rw [abs_of_nonneg (by positivity)]
      have e2 : pow2 (-100) = 2 ^ 26 * pow2 (-126) := by rw [pow2_eq, pow2_eq]; norm_num
      have hp0 := pow2_pos (-126)
      rw [e2] at h
      have := h.1
      norm_num at *
      linarith
    have hMe := rnd_err hMn
    have hM0 : 0 ≤ M := (abs_nonneg _).trans hMc
    rw [abs_of_nonneg (show 0 ≤ 1 / 2 ^ 23 * M by positivity)] at hMe
    have hMe' := (abs_le.mp hMe).2
    -- |v - c| against its rounded value
    have hlow : |v.val - c.val| ≤ |rnd (v.val - c.val)| + |v.val - c.val| / 2 ^ 24 := by
      have h1 := abs_add_le (v.val - c.val - rnd (v.val - c.val)) (rnd (v.val - c.val))
      rw [sub_add_cancel, abs_sub_comm (v.val - c.val)] at h1
      linarith
    have hfin : |v.val - c.val| ≤ 21 / 10 / 2 ^ 24 * M := by norm_num at *; linarith
    set N := max |v.val| |C| with hN
    have hNv : |v.val| ≤ N := le_max_left _ _
    have hNC : |C| ≤ N := le_max_right _ _
    have hMN : M ≤ N + 5 / 2 ^ 24 * N := by
      apply max_le
      · have : 0 ≤ N := hv0.trans hNv
        norm_num; linarith
      · refine hcb.trans ?_
        norm_num; linarith
    have hgoal : |v.val - C| ≤ 8 / 2 ^ 24 * N := by
      have h1 := abs_add_le (v.val - c.val) (c.val - C)
      rw [sub_add_sub_cancel] at h1
      have hN0 : 0 ≤ N := hv0.trans hNv
      norm_num at *
      linarith
    have hq : a.exact * v.val - b.exact * w.val = a.exact * (v.val - C) := by rw [hCdef, Tag.converted]; field_simp
    have hmx : max (a.exact * |v.val|) (b.exact * |w.val|) = a.exact * N := by
      have : b.exact * |w.val| = a.exact * |C| := by rw [hCdef, Tag.converted, abs_div, abs_mul, abs_of_pos a0, abs_of_pos b0]; field_simp
      rw [this, hN, mul_max_of_nonneg _ _ a0.le]
    rw [hq, hmx, abs_mul, abs_of_pos a0]
    calc a.exact * |v.val - C| ≤ a.exact * (8 / 2 ^ 24 * N) := mul_le_mul_of_nonneg_left hgoal a0.le
      _ = _ := by ring
  refine ⟨key, fun hlt => ?_⟩
  unfold ne
  cases he : eq a.magnitude b.magnitude v w with
  | false => rfl
  | true => exact absurd (key he) (not_le.mpr hlt)

/-- 1000 m and 1 km are equal, 1001 m and 1 km are not. -/
example : eq Tag.base.magnitude Tag.kilo.magnitude (Fl.ofRat 1000) (Fl.ofRat 1) = true ∧ ne Tag.base.magnitude Tag.kilo.magnitude (Fl.ofRat 1001) (Fl.ofRat 1) = true ∧
    pow2 (-100) ≤ |Tag.kilo.converted .base (Fl.ofRat 1).val| ∧ |Tag.kilo.converted .base (Fl.ofRat 1).val| ≤ 2 ^ 125 := by decide +kernel

/-- C131 is false for equal quantities: 30 mm do not equal 3 cm. -/
theorem C131_equal_counterexample : eq Tag.milli.magnitude Tag.centi.magnitude (Fl.ofRat 30) (Fl.ofRat 3) = false ∧
    ne Tag.milli.magnitude Tag.centi.magnitude (Fl.ofRat 30) (Fl.ofRat 3) = true ∧ Tag.milli.exact * 30 = Tag.centi.exact * 3 := by decide +kernel

/-- C131: a ratio of two values of different units is the ratio of the quantities, up to seven units in 2^24, if neither the converted divisor nor the result is too large or too
small for a normal `float`; a zero divisor is reported. -/
theorem C131_ratio {a b : Tag} {v w : Fl} (hv : v.fin = true) (hvo : v.Ok) (hw : w.fin = true) (hwo : w.Ok) :
    (w.val = 0 → ratio a.magnitude b.magnitude v w = .error .exception) ∧
      (pow2 (-125) ≤ |b.converted a w.val| ∧ |b.converted a w.val| ≤ 2 ^ 127 →
        v.val = 0 ∨ pow2 (-125) ≤ |a.exact * v.val / (b.exact * w.val)| ∧ |a.exact * v.val / (b.exact * w.val)| ≤ 2 ^ 126 →
        ∃ r, ratio a.magnitude b.magnitude v w = .ok r ∧ r.fin = true ∧
          |r.val - a.exact * v.val / (b.exact * w.val)| ≤ 7 / 2 ^ 24 * |a.exact * v.val / (b.exact * w.val)|) := by
  have hz : (fzero : Fl).val = 0 ∧ (fzero : Fl).fin = true := by decide +kernel
  have hfeq : ∀ x : Fl, x.fin = true → ((feq x fzero : Bool) = true ↔ x.val = 0) := by
    intro x hx
    unfold feq
    rw [Bool.and_eq_true]
    show Fl.le x fzero = true ∧ Fl.le fzero x = true ↔ _
    rw [Fl.le_iff hx hz.2, Fl.le_iff hz.2 hx, hz.1]
    constructor
    · rintro ⟨h1, h2⟩; exact le_antisymm h1 h2
    · intro h; rw [h]; exact ⟨le_refl _, le_refl _⟩
  refine ⟨fun h0 => ?_, fun h hr => ?_⟩
  · obtain ⟨f1, e1⟩ := C104_convert (a := b) (b := a) hw hwo (.inl h0)
    have hC : b.converted a w.val = 0 := by rw [Tag.converted, h0]; simp
    rw [hC, abs_zero, mul_zero, sub_zero] at e1
    have hc0 : (fromOther b.magnitude a.magnitude w).val = 0 := abs_eq_zero.mp (le_antisymm e1 (abs_nonneg _))
    unfold ratio
    simp only [(hfeq _ f1).mpr hc0, if_true]
  · obtain ⟨f1, e1⟩ := C104_convert (a := b) (b := a) hw hwo (.inr h)
    have o1 := convert_ok (a := a) (b := b) hwo
    unfold ratio
    set c := fromOther b.magnitude a.magnitude w with hc
    have a0 : 0 < a.exact := lt_of_lt_of_le (by norm_num) (exact_bounds a).1
    have b0 : 0 < b.exact := lt_of_lt_of_le (by norm_num) (exact_bounds b).1
    have hCpos : 0 < |b.converted a w.val| := lt_of_lt_of_le (pow2_pos _) h.1
    have hCne : b.converted a w.val ≠ 0 := abs_pos.mp hCpos
    have hw0 : w.val ≠ 0 := by
      rintro h0
      exact hCne (by rw [Tag.converted, h0]; simp)
    obtain ⟨d, hd, hcd⟩ : ∃ d : Rat, |d| ≤ 5 / 2 ^ 24 ∧ c.val = b.converted a w.val * (1 + d) := by
      refine ⟨(c.val - b.converted a w.val) / b.converted a w.val, ?_, by field_simp; ring⟩
      rw [abs_div, div_le_iff₀ hCpos]; exact e1
    obtain ⟨l1, u1⟩ := abs_le.mp hd
    have p1 : 0 < 1 + d := by norm_num at l1; linarith
    have hc0 : c.val ≠ 0 := by rw [hcd]; exact mul_ne_zero hCne p1.ne'
    have hno : ¬ ((feq c fzero : Bool) = true) := fun hh => hc0 ((hfeq _ f1).mp hh)
    simp only [hno, if_false]
    set Q := a.exact * v.val / (b.exact * w.val) with hQ
    have hvc : v.val / c.val = Q / (1 + d) := by
      rw [hcd, hQ, Tag.converted]
      field_simp
    have hinv : |1 / (1 + d) - 1| ≤ (5 + 1 / 2) / 2 ^ 24 := by
      have : 1 / (1 + d) - 1 = -d / (1 + d) := by field_simp; ring
      rw [this, abs_div, abs_neg, abs_of_pos p1, div_le_iff₀ p1]
      norm_num at *
      linarith
    refine ⟨Fl.div v c, rfl, ?_⟩
    rcases hr with hv0 | ⟨hl, hu⟩
    · have hb : |rnd (v.val / c.val)| < pow2 128 := by rw [hv0, zero_div, Fl.rnd_zero, abs_zero]; exact pow2_pos _
      obtain ⟨k1, k2⟩ := Fl.div_val hv f1 hvo o1 hc0 hb
      refine ⟨k1, ?_⟩
      rw [k2, hv0, zero_div, Fl.rnd_zero, hQ, hv0]; simp
    · have hQ0 := abs_nonneg Q
      obtain ⟨l2, u2⟩ := abs_le.mp hinv
      have hk0 : 0 < 1 / (1 + d) := by positivity
      have hk : |v.val / c.val| = |Q| * (1 / (1 + d)) := by rw [hvc, abs_div, abs_of_pos p1]; ring
      have hl' : pow2 (-126) ≤ |v.val / c.val| := by
        rw [hk]
        have e : pow2 (-125) = 2 * pow2 (-126) := by rw [pow2_eq, pow2_eq]; norm_num
        have hk1 : (1 : Rat) / 2 ≤ 1 / (1 + d) := by norm_num at *; linarith
        calc pow2 (-126) = pow2 (-125) * (1 / 2) := by rw [e]; ring
          _ ≤ _ := mul_le_mul hl hk1 (by norm_num) hQ0
      have hre := rnd_err hl'
      have hk2 : |v.val / c.val| ≤ |Q| * (1 + 6 / 2 ^ 24) := by
        rw [hk]
        refine mul_le_mul_of_nonneg_left ?_ hQ0
        norm_num at *; linarith
      have hb : |rnd (v.val / c.val)| < pow2 128 := by
        have h1 := abs_add_le (rnd (v.val / c.val) - v.val / c.val) (v.val / c.val)
        rw [sub_add_cancel] at h1
        rw [pow2_eq]
        norm_num at *
        linarith
      obtain ⟨k1, k2⟩ := Fl.div_val hv f1 hvo o1 hc0 hb
      refine ⟨k1, ?_⟩
      rw [k2]
      have t1 := abs_add_le (rnd (v.val / c.val) - v.val / c.val) (v.val / c.val - Q)
      rw [sub_add_sub_cancel] at t1
      have t2 : |v.val / c.val - Q| ≤ (5 + 1 / 2) / 2 ^ 24 * |Q| := by
        have : v.val / c.val - Q = (1 / (1 + d) - 1) * Q := by rw [hvc]; ring
        rw [this, abs_mul]
        exact mul_le_mul_of_nonneg_right hinv hQ0
      norm_num at *
      linarith [abs_nonneg Q]

/-- 2.5 km are 50 times 50 m. -/
example : pow2 (-125) ≤ |Tag.base.converted .kilo (Fl.ofRat 50).val| ∧ |Tag.base.converted .kilo (Fl.ofRat 50).val| ≤ 2 ^ 127 ∧
    Tag.kilo.exact * (Fl.ofRat (5 / 2)).val / (Tag.base.exact * (Fl.ofRat 50).val) = 50 := by decide +kernel

/-- A divisor that is too small for the unit of the dividend is reported as zero. -/
theorem C131_underflow_counterexample : (Fl.ofRat (1 / 10000000000)).val ≠ 0 ∧
    ratio Tag.exa.magnitude Tag.atto.magnitude (Fl.ofRat 1) (Fl.ofRat (1 / 10000000000)) = .error .exception := by decide +kernel

end Spine
