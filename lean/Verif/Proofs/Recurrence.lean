import Verif.Spec.Controlled
import Mathlib.Analysis.Complex.Polynomial.Basic
import Mathlib.Analysis.SpecificLimits.Basic
import Mathlib.Algebra.Polynomial.Splits
/-!
# Linear recurrences

A polynomial acts on sequences by letting its variable stand for a shift by one. A sequence on which a polynomial with all its roots inside the unit circle
gives 0 dies out, and is bounded by a multiple of its first values.
-/

namespace Spine
namespace Recurrence
open Polynomial

variable {R : Type} [CommRing R]

/-- The sequence without its first value. -/
def shift (R : Type) [CommRing R] : Module.End R (ℕ → R) where
  toFun f k := f (k + 1)
  map_add' _ _ := rfl
  map_smul' _ _ := rfl

/-- What a polynomial makes of a sequence. -/
noncomputable def act (P : R[X]) (f : ℕ → R) : ℕ → R := aeval (shift R) P f

theorem shift_pow (i : ℕ) (f : ℕ → R) (k : ℕ) : (shift R ^ i) f k = f (k + i) := by
  induction i generalizing k with
  | zero => simp
  | succ i ih => rw [pow_succ', Module.End.mul_apply]; show (shift R ^ i) f (k + 1) = _; rw [ih]; congr 1; omega

theorem act_apply (P : R[X]) (f : ℕ → R) (k : ℕ) : act P f k = P.sum fun i a => a * f (k + i) := by
  unfold act
  rw [aeval_eq_sum_range, LinearMap.sum_apply, Finset.sum_apply, Polynomial.sum_over_range]
  · refine Finset.sum_congr rfl fun i _ => ?_
    rw [LinearMap.smul_apply, Pi.smul_apply, shift_pow, smul_eq_mul]
  · simp

theorem act_mul (P Q : R[X]) (f : ℕ → R) : act (P * Q) f = act P (act Q f) := by unfold act; rw [map_mul]; rfl
theorem act_add (P Q : R[X]) (f : ℕ → R) : act (P + Q) f = act P f + act Q f := by unfold act; rw [map_add]; rfl
theorem act_sub (P Q : R[X]) (f : ℕ → R) : act (P - Q) f = act P f - act Q f := by unfold act; rw [map_sub]; rfl
theorem act_add_right (P : R[X]) (f g : ℕ → R) : act P (f + g) = act P f + act P g := map_add _ _ _
theorem act_sub_right (P : R[X]) (f g : ℕ → R) : act P (f - g) = act P f - act P g := map_sub _ _ _
theorem act_neg_right (P : R[X]) (f : ℕ → R) : act P (-f) = -act P f := map_neg _ _
theorem act_zero_right (P : R[X]) : act P 0 = 0 := map_zero _
theorem act_one (f : ℕ → R) : act 1 f = f := by unfold act; rw [map_one]; rfl
theorem act_C (a : R) (f : ℕ → R) (k : ℕ) : act (C a) f k = a * f k := by unfold act; rw [aeval_C]; rfl
theorem act_X (f : ℕ → R) (k : ℕ) : act X f k = f (k + 1) := by unfold act; rw [aeval_X]; rfl

theorem act_comm (P Q : R[X]) (f : ℕ → R) : act P (act Q f) = act Q (act P f) := by rw [← act_mul, mul_comm, act_mul]

theorem act_const (P : R[X]) (c : R) : act P (fun _ => c) = fun _ => P.eval 1 * c := by
  funext k
  rw [act_apply, eval_eq_sum]
  simp only [Polynomial.sum, one_pow, mul_one, Finset.sum_mul]

theorem act_map {S : Type} [CommRing S] (φ : R →+* S) (P : R[X]) (f : ℕ → R) : act (P.map φ) (fun k => φ (f k)) = fun k => φ (act P f k) := by
  funext k
  induction P using Polynomial.induction_on' generalizing k with
  | add P Q hP hQ => rw [Polynomial.map_add, act_add, act_add, Pi.add_apply, Pi.add_apply, map_add, hP, hQ]
  | monomial n a =>
    rw [map_monomial, act_apply, act_apply, sum_monomial_index, sum_monomial_index, map_mul] <;> simp

/-- The factors in turn: a bound by the first values, which shrinks by a factor `q` with each step. -/
theorem bound_of_roots {q : ℝ} (hq0 : 0 < q) (l : List ℂ) (hl : ∀ z ∈ l, ‖z‖ < q) : ∃ K : ℝ, 1 ≤ K ∧ ∀ (f : ℕ → ℂ) (G : ℝ), 0 ≤ G →
    (∀ k, ‖act (l.map fun z => X - C z).prod f k‖ ≤ G * q ^ k) → (∀ i < l.length, ‖f i‖ ≤ G) → ∀ k, ‖f k‖ ≤ K * G * q ^ k := by
  induction l with
  | nil => exact ⟨1, le_refl _, fun f G _ h _ k => by simpa [act_one] using h k⟩
  | cons z l ih =>
    obtain ⟨K, hK, ih⟩ := ih (fun w hw => hl w (by simp [hw]))
    have hz : ‖z‖ < q := hl z (by simp)
    have hq : 0 < q - ‖z‖ := by linarith
    obtain ⟨P, hP⟩ : ∃ P, P = (l.map fun z => X - C z).prod := ⟨_, rfl⟩
    have hdeg : P.natDegree ≤ l.length := by
      rw [hP]
      refine (natDegree_list_prod_le _).trans ?_
      rw [List.map_map]
      have : ∀ l : List ℂ, (l.map (natDegree ∘ fun z => X - C z)).sum ≤ l.length := by
        intro l
        induction l with
        | nil => simp
        | cons z l ih =>
          simp only [List.map_cons, List.sum_cons, List.length_cons, Function.comp_apply, natDegree_X_sub_C]
          omega
      exact this l
    obtain ⟨S, hS⟩ : ∃ S, S = ∑ i ∈ Finset.range (P.natDegree + 1), ‖P.coeff i‖ := ⟨_, rfl⟩
    have hS0 : 0 ≤ S := by rw [hS]; exact Finset.sum_nonneg fun _ _ => norm_nonneg _
    refine ⟨K * (1 + S + 1 / (q - ‖z‖)), ?_, ?_⟩
    · have : 0 < 1 / (q - ‖z‖) := by positivity
      nlinarith
    · intro f G hG h hi
      have h0 : ‖act P f 0‖ ≤ S * G := by
        rw [act_apply, Polynomial.sum_over_range _ (by simp)]
        refine (norm_sum_le _ _).trans ?_
        rw [hS, Finset.sum_mul]
        refine Finset.sum_le_sum fun i hi' => ?_
        rw [norm_mul, zero_add]
        refine mul_le_mul_of_nonneg_left (hi i ?_) (norm_nonneg _)
        rw [Finset.mem_range] at hi'
        simp only [List.length_cons]
        omega
      have hk : ∀ k, ‖act P f k‖ ≤ (S * G + G / (q - ‖z‖)) * q ^ k := by
        intro k
        induction k with
        | zero =>
          have : 0 ≤ G / (q - ‖z‖) := by positivity
          rw [pow_zero]
          linarith
        | succ k ih =>
          have h1 := h k
          rw [List.map_cons, List.prod_cons, ← hP, act_mul, act_sub, Pi.sub_apply, act_X, act_C] at h1
          have h2 : act P f (k + 1) = (act P f (k + 1) - z * act P f k) + z * act P f k := by rw [sub_add_cancel]
          rw [h2]
          refine (norm_add_le _ _).trans ?_
          rw [norm_mul]
          have h3 := mul_le_mul_of_nonneg_left ih (norm_nonneg z)
          have h4 : G + ‖z‖ * (G / (q - ‖z‖)) = q * (G / (q - ‖z‖)) := by field_simp; ring
          have h5 : ‖z‖ * (S * G) ≤ q * (S * G) := mul_le_mul_of_nonneg_right hz.le (mul_nonneg hS0 hG)
          have h6 : G + ‖z‖ * (S * G + G / (q - ‖z‖)) ≤ q * (S * G + G / (q - ‖z‖)) := by linarith [mul_add ‖z‖ (S * G) (G / (q - ‖z‖))]
          have h7 := mul_le_mul_of_nonneg_right h6 (pow_nonneg hq0.le k)
          rw [pow_succ]
          linarith
      intro k
      have hG' : 0 ≤ G / (q - ‖z‖) := by positivity
      have hSG := mul_nonneg hS0 hG
      have hexp : (1 + S + 1 / (q - ‖z‖)) * G = G + S * G + G / (q - ‖z‖) := by ring
      have := ih f ((1 + S + 1 / (q - ‖z‖)) * G) (by positivity) (fun k => by
        rw [← hP]
        refine (hk k).trans (mul_le_mul_of_nonneg_right ?_ (pow_nonneg hq0.le k))
        rw [hexp]; linarith) (fun i hi' => by
        refine (hi i (by simp only [List.length_cons]; omega)).trans ?_
        rw [hexp]; linarith) k
      rw [← mul_assoc K] at this
      exact this

theorem _root_.Spine.Damped.ne_zero {P : ℚ[X]} (h : Damped P) : P ≠ 0 := by
  rintro rfl
  have := h 1 (by simp)
  simp at this

theorem _root_.Spine.Damped.factors {P : ℚ[X]} (h : Damped P) : ∃ (a : ℂ) (l : List ℂ), a ≠ 0 ∧ (∀ z ∈ l, ‖z‖ < 1) ∧ l.length = P.natDegree ∧
    P.map (algebraMap ℚ ℂ) = C a * (l.map fun z => X - C z).prod := by
  have hs := IsAlgClosed.splits (P.map (algebraMap ℚ ℂ))
  refine ⟨(P.map (algebraMap ℚ ℂ)).leadingCoeff, (P.map (algebraMap ℚ ℂ)).roots.toList, ?_, ?_, ?_, ?_⟩
  · rw [leadingCoeff_map]
    simpa using h.ne_zero
  · intro z hz
    rw [Multiset.mem_toList, mem_roots'] at hz
    refine h z ?_
    rw [← eval_map_algebraMap]
    exact hz.2
  · rw [Multiset.length_toList, ← hs.natDegree_eq_card_roots, natDegree_map]
  · conv_lhs => rw [hs.eq_prod_roots]
    congr 1
    rw [← Multiset.prod_coe, ← Multiset.map_coe, Multiset.coe_toList]

/-- All sequences that follow a damped recurrence die out, at the same rate and bounded by the same multiple of their first values. -/
theorem dies_out {P : ℚ[X]} (h : Damped P) : ∃ K q : ℚ, 1 ≤ K ∧ 0 < q ∧ q < 1 ∧ ∀ (f : ℕ → ℚ) (G : ℚ), act P f = 0 → 0 ≤ G → (∀ i < P.natDegree, |f i| ≤ G) →
    ∀ k, |f k| ≤ K * G * q ^ k := by
  obtain ⟨a, l, ha, hl, hn, hP⟩ := h.factors
  obtain ⟨q₀, hq₀, hq₁⟩ : ∃ q₀ : ℝ, q₀ < 1 ∧ 0 ≤ q₀ ∧ ∀ z ∈ l, ‖z‖ ≤ q₀ := by
    clear hP hn
    induction l with
    | nil => exact ⟨0, by norm_num, le_refl _, by simp⟩
    | cons z l ih =>
      obtain ⟨q₀, h1, h2, h3⟩ := ih (fun w hw => hl w (by simp [hw]))
      refine ⟨max q₀ ‖z‖, max_lt h1 (hl z (by simp)), le_max_of_le_left h2, fun w hw => ?_⟩
      rcases List.mem_cons.mp hw with rfl | hw
      · exact le_max_right _ _
      · exact (h3 w hw).trans (le_max_left _ _)
  obtain ⟨q, hq, hq'⟩ := exists_rat_btwn hq₀
  have hqpos : (0 : ℝ) < q := by linarith [hq₁.1]
  obtain ⟨K, hK, hb⟩ := bound_of_roots hqpos l (fun z hz => by linarith [hq₁.2 z hz])
  obtain ⟨K', hK'⟩ := exists_rat_gt K
  refine ⟨K', q, by exact_mod_cast (hK.trans hK'.le), by exact_mod_cast hqpos, by exact_mod_cast hq', fun f G hf hG hi k => ?_⟩
  have h0 : act (l.map fun z => X - C z).prod (fun k => (f k : ℂ)) = 0 := by
    have h1 := act_map (algebraMap ℚ ℂ) P f
    rw [hf, hP, act_mul] at h1
    funext k
    have h2 := congrFun h1 k
    rw [act_C] at h2
    simp only [Pi.zero_apply, map_zero, mul_eq_zero] at h2
    exact h2.resolve_left ha
  have hG' : (0 : ℝ) ≤ G := by exact_mod_cast hG
  have h1 := hb (fun k => (f k : ℂ)) G hG' (fun k => by rw [h0]; simpa using mul_nonneg hG' (pow_nonneg hqpos.le k)) (fun i hi' => by
    rw [Complex.norm_ratCast]
    exact_mod_cast hi i (by omega)) k
  rw [Complex.norm_ratCast] at h1
  have h2 : (K : ℝ) * G * q ^ k ≤ K' * G * q ^ k := mul_le_mul_of_nonneg_right (mul_le_mul_of_nonneg_right hK'.le hG') (pow_nonneg hqpos.le k)
  exact_mod_cast h1.trans h2

end Recurrence
end Spine
