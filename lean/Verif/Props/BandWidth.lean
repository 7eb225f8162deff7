import Verif.Model.BandWidth
import Verif.Proofs.Band
/-!
# Property C167: the width of the band of a `BandPass`
-/

namespace Spine

namespace BandConfig

/-- The documented width, `bandpass.hpp:25-27`: `upper=offset+mantissa*10^(decades+1), lower=offset-mantissa*10^(decades+1)`. -/
noncomputable def documented (c : BandConfig) : ℝ := c.mantissa * (10 : ℝ) ^ (c.decades + 1)

/-- The middle of the band: the offset, plus the value in relative mode. -/
noncomputable def middle (c : BandConfig) (v : ℝ) : ℝ := (if c.relative then v else 0) + c.offset

/-- The band has the width `w`: after any history, with a value (the filter is not waiting for its first sample) and as long as the rejection limit is not reached, a
sample is accepted if it is not further than `w` from the middle, and rejected if it is. -/
def Follows (c : BandConfig) (w : ℝ) : Prop := ∀ (s : Band ℝ) (x : ℝ), Band.Reachable c.seen s → s.value ≠ -789123456789 / 1000000000 → s.rejections < c.limit →
  (|x - c.middle s.value| ≤ w → ∃ s', s.sample c.seen x = .ok (true, s') ∧ s'.value = x ∧ s'.rejections = 0) ∧
  (w < |x - c.middle s.value| → ∃ s', s.sample c.seen x = .ok (true, s') ∧ s'.value = s.value ∧ s'.rejections = s.rejections + 1)

/-- What the constructor demands of a configuration. -/
def Valid (c : BandConfig) : Prop := 1 ≤ c.mantissa ∧ c.mantissa < 10

end BandConfig

open BandConfig

theorem arith_le {a b : ℝ} : Arith.le a b = true ↔ a ≤ b := @decide_eq_true_iff _ (Classical.propDecidable _)

/-- In exact arithmetic the band is a distance. -/
theorem inBand_real {c : BandConfig} {v x : ℝ} : inBand c.seen v x = true ↔ |x - c.middle v| ≤ c.width := by
  have hb : inBand c.seen v x = (Arith.le (Arith.sub (c.middle v) c.width) x && Arith.le x (Arith.add (c.middle v) c.width)) := by
    unfold inBand middle seen
    cases c.relative
    · simp [Arith.add]
    · rfl
  rw [hb, Bool.and_eq_true, arith_le, arith_le, abs_le]
  simp only [Arith.sub, Arith.add]
  constructor <;> rintro ⟨a, b⟩ <;> constructor <;> linarith

theorem feq_unset {v : ℝ} (h : v ≠ -789123456789 / 1000000000) : feq v Band.unset = false := by
  have h' : v ≠ ((-789123456789 / 1000000000 : ℚ) : ℝ) := by push_cast; exact h
  cases hb : feq v Band.unset with
  | false => rfl
  | true =>
    rw [feq, Bool.and_eq_true, arith_le, arith_le] at hb
    exact absurd (le_antisymm hb.1 hb.2) h'

/-! ## C167 -/

/-- **C167.** The constructor accepts exactly the mantissas from 1 to 10. -/
theorem C167_valid (c : BandConfig) : (c.Valid → ∀ b, ∃ s, c.make b = .ok s ∧ Band.Reachable c.seen s) ∧ (¬ c.Valid → c.make .debug = .error .assertFailed) := by
  constructor
  · intro h b
    refine ⟨Band.create c.seen, ?_, ⟨[], rfl⟩⟩
    simp [make, h.1, h.2]
  · intro h
    have : (decide (1 ≤ c.mantissa) && decide (c.mantissa < 10)) = false := by
      by_contra hne
      simp at hne
      exact h hne
    simp [make, this]

/-- **C167, the width.** The band has the width `(mantissa*10)^(decades+1)`. -/
theorem C167_width (c : BandConfig) (hl : c.limit < 2 ^ 31) : c.Follows c.width := by
  intro s x hr hv hj
  have hb : s.base x = s.value := by simp [Band.base, feq_unset hv]
  obtain ⟨h1, h2⟩ := Band.sample_cases (Band.inv_reachable hr) x
  rw [hb] at h1 h2
  constructor
  · intro h
    obtain ⟨s', e, v, j, -⟩ := h1 (inBand_real.mpr h)
    exact ⟨s', e, v, j⟩
  · intro h
    have hn : inBand c.seen s.value x = false := by
      cases hc : inBand c.seen s.value x with
      | false => rfl
      | true => exact absurd (inBand_real.mp hc) (not_le.mpr h)
    have hle : s.rejections + 1 ≤ c.seen.limit := hj
    obtain ⟨s', e, j, -, v⟩ := (h2 hn).2 (by omega)
    exact ⟨s', by simpa [hle] using e, by simpa [hle] using v, j⟩

/-- **C167.** There is only one width. -/
theorem C167_unique (c : BandConfig) (hl : c.limit < 2 ^ 31) (hl' : 0 < c.limit) (hc : c.Valid) {w : ℝ} (hw : 0 ≤ w) (h : c.Follows w) : w = c.width := by
  have hpos : 0 ≤ c.width := Real.rpow_nonneg (by have := hc.1; positivity) _
  -- a fresh filter that has been reset to 0
  have hr : Band.Reachable c.seen ((Band.create c.seen).reset 0) := ⟨[.reset 0], rfl⟩
  have hv : ((Band.create c.seen).reset 0).value ≠ -789123456789 / 1000000000 := by
    change (0 : ℝ) ≠ _
    norm_num
  have hj : ((Band.create c.seen).reset 0).rejections < c.limit := hl'
  have hd : ∀ d : ℝ, 0 ≤ d → |c.middle ((Band.create c.seen).reset 0).value + d - c.middle ((Band.create c.seen).reset 0).value| = d := by
    intro d hd
    rw [add_sub_cancel_left, abs_of_nonneg hd]
  by_contra hne
  rcases lt_or_gt_of_ne hne with hlt | hlt
  · obtain ⟨s₁, e₁, -, j₁⟩ := (h _ _ hr hv hj).2 (by rw [hd _ hpos]; exact hlt)
    obtain ⟨s₂, e₂, -, j₂⟩ := (C167_width c hl _ _ hr hv hj).1 (le_of_eq (hd _ hpos))
    rw [e₁] at e₂
    cases e₂
    rw [j₁] at j₂
    exact absurd (show (0 : Int) + 1 = 0 from j₂) (by decide)
  · obtain ⟨s₁, e₁, -, j₁⟩ := (h _ _ hr hv hj).1 (le_of_eq (hd _ hw))
    obtain ⟨s₂, e₂, -, j₂⟩ := (C167_width c hl _ _ hr hv hj).2 (by rw [hd _ hw]; exact hlt)
    rw [e₁] at e₂
    cases e₂
    rw [j₁] at j₂
    exact absurd (show (0 : Int) = 0 + 1 from j₂) (by decide)

/-- The width is the documented one, times a power of the mantissa. -/
theorem width_eq {c : BandConfig} (hc : c.Valid) : c.width = c.documented * c.mantissa ^ c.decades := by
  have hm : 0 < c.mantissa := lt_of_lt_of_le one_pos hc.1
  rw [width, documented, Real.mul_rpow hm.le (by norm_num), Real.rpow_add hm, Real.rpow_one]
  ring

/-- **C167, the claim.** "A BandPass accepts what is not further than mantissa*10^(decades+1) from the offset, or from the offset plus its value."

True if the mantissa is 1, as it is by default, or `decades` is 0, and only then. -/
theorem C167_documented_partial (c : BandConfig) (hl : c.limit < 2 ^ 31) (hl' : 0 < c.limit) (hc : c.Valid) : c.Follows c.documented ↔ c.mantissa = 1 ∨ c.decades = 0 := by
  have hm : 0 < c.mantissa := lt_of_lt_of_le one_pos hc.1
  have hd : 0 < c.documented := mul_pos hm (Real.rpow_pos_of_pos (by norm_num) _)
  have key : c.documented = c.width ↔ c.mantissa = 1 ∨ c.decades = 0 := by
    rw [width_eq hc]
    constructor
    · intro h
      have h1 : c.mantissa ^ c.decades = 1 := by
        have : c.documented * 1 = c.documented * c.mantissa ^ c.decades := by rw [mul_one]; exact h
        exact (mul_left_cancel₀ hd.ne' this).symm
      have h2 := congrArg Real.log h1
      rw [Real.log_rpow hm, Real.log_one, mul_eq_zero] at h2
      rcases h2 with h2 | h2
      · exact .inr h2
      · exact .inl (Real.eq_one_of_pos_of_log_eq_zero hm h2)
    · rintro (h | h) <;> simp [h]
  constructor
  · intro h
    exact key.mp (C167_unique c hl hl' hc hd.le h)
  · intro h
    rw [key.mpr h]
    exact C167_width c hl

/-- **C167, counterexample.** With a mantissa of 2 and one decade, the band is 400 to both sides instead of 200: a reading of 300 is accepted after one of 0. -/
theorem C167_mantissa_counterexample : (⟨true, 2, 1, 0, 10, true⟩ : BandConfig).documented = 200 ∧ (⟨true, 2, 1, 0, 10, true⟩ : BandConfig).width = 400 := by
  constructor
  · simp only [documented]; norm_num
  · simp only [width]; norm_num

/-- **C167.** `Broad()`, which is also the default, accepts what is within about 10.23 of the value, as documented. -/
theorem C167_broad : (broad.Follows broad.documented ∧ ∀ v, broad.middle v = v) ∧ 10.23 < broad.documented ∧ broad.documented < 10.24 := by
  refine ⟨⟨(C167_documented_partial broad (by simp [broad]) (by simp [broad]) (by constructor <;> norm_num [broad])).mpr (.inl rfl), fun v => by simp [middle, broad]⟩, ?_, ?_⟩
  · have h : (10.23 : ℝ) = ((10.23 : ℝ) ^ (100 : ℕ)) ^ ((100 : ℕ)⁻¹ : ℝ) := (Real.pow_rpow_inv_natCast (by norm_num) (by norm_num)).symm
    have h' : broad.documented = ((10 : ℝ) ^ (101 : ℕ)) ^ ((100 : ℕ)⁻¹ : ℝ) := by
      rw [← Real.rpow_natCast, ← Real.rpow_mul (by norm_num)]
      simp only [documented, broad, one_mul]
      norm_num
    rw [h, h']
    exact Real.rpow_lt_rpow (by positivity) (by norm_num) (by norm_num)
  · have h : (10.24 : ℝ) = ((10.24 : ℝ) ^ (100 : ℕ)) ^ ((100 : ℕ)⁻¹ : ℝ) := (Real.pow_rpow_inv_natCast (by norm_num) (by norm_num)).symm
    have h' : broad.documented = ((10 : ℝ) ^ (101 : ℕ)) ^ ((100 : ℕ)⁻¹ : ℝ) := by
      rw [← Real.rpow_natCast, ← Real.rpow_mul (by norm_num)]
      simp only [documented, broad, one_mul]
      norm_num
    rw [h, h']
    exact Real.rpow_lt_rpow (by positivity) (by norm_num) (by norm_num)

/-- **C167, counterexample.** The distance is not a logarithmic one, as the documentation of the class says ("accepts new values within a logarithmic distance of the last
value"): the default filter rejects 111 after 100, a ratio of 1.11, and accepts 10 after 0.001, a ratio of 10000. -/
theorem C167_logarithmic_counterexample {s : Band ℝ} (hr : Band.Reachable broad.seen s) (hj : s.rejections = 0) :
    (s.value = 100 → ∃ s', s.sample broad.seen 111 = .ok (true, s') ∧ s'.value = 100) ∧ (s.value = 1 / 1000 → ∃ s', s.sample broad.seen 10 = .ok (true, s') ∧ s'.value = 10) := by
  obtain ⟨⟨h, -⟩, h1, h2⟩ := C167_broad
  constructor
  · intro hv
    obtain ⟨s', e, v, -⟩ := (h s 111 hr (by rw [hv]; norm_num) (by rw [hj]; simp [broad])).2 (by
      rw [hv]
      have : |(111 : ℝ) - broad.middle 100| = 11 := by simp only [middle, broad, if_true]; norm_num
      rw [this]; linarith)
    exact ⟨s', e, by rw [v, hv]⟩
  · intro hv
    obtain ⟨s', e, v, -⟩ := (h s 10 hr (by rw [hv]; norm_num) (by rw [hj]; simp [broad])).1 (by
      rw [hv]
      have : |(10 : ℝ) - broad.middle (1 / 1000)| = 9.999 := by simp only [middle, broad, if_true]; norm_num
      rw [this]; linarith)
    exact ⟨s', e, v⟩

/-- **C167.** So the default filter never rejects anything of a quantity between 0 and 1. -/
theorem C167_normalised {s : Band ℝ} (hr : Band.Reachable broad.seen s) (hj : s.rejections = 0) (hv : 0 ≤ s.value) (hv' : s.value ≤ 1) {x : ℝ} (hx : 0 ≤ x) (hx' : x ≤ 1) :
    ∃ s', s.sample broad.seen x = .ok (true, s') ∧ s'.value = x ∧ s'.rejections = 0 := by
  obtain ⟨⟨h, -⟩, h1, h2⟩ := C167_broad
  refine (h s x hr (by intro h0; rw [h0] at hv; norm_num at hv) (by rw [hj]; simp [broad])).1 ?_
  have : |x - broad.middle s.value| ≤ 1 := by
    simp only [middle, broad, if_true, add_zero, abs_le]
    constructor <;> linarith
  linarith

/-- The hypotheses hold for filters that have been reset to a value. -/
example (v : ℝ) : ∃ s, Band.Reachable broad.seen s ∧ s.value = v ∧ s.rejections = 0 := ⟨_, ⟨[.reset v], rfl⟩, rfl, rfl⟩

example : broad.Valid ∧ (⟨false, 3, 0, 5, 3, false⟩ : BandConfig).Valid := by
  constructor <;> constructor <;> norm_num [broad]

end Spine
