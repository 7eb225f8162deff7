import Verif.Proofs.Recurrence
import Mathlib.Tactic.LinearCombination
/-!
# When the roots of a cubic lie inside the unit circle

The criterion of Jury.
-/

namespace Spine
namespace Recurrence
open Polynomial

theorem cubic_root {a₂ a₁ a₀ : ℝ} (h1 : 0 < 1 + a₂ + a₁ + a₀) (h2 : 0 < 1 - a₂ + a₁ - a₀) (h3 : a₀ ^ 2 < 1)
    (h4 : a₀ * a₂ - a₁ < 1 - a₀ ^ 2) (h5 : -(a₀ * a₂ - a₁) < 1 - a₀ ^ 2) {x y : ℝ}
    (hre : x ^ 3 - 3 * x * y ^ 2 + a₂ * (x ^ 2 - y ^ 2) + a₁ * x + a₀ = 0) (him : 3 * x ^ 2 * y - y ^ 3 + 2 * a₂ * x * y + a₁ * y = 0) :
    x ^ 2 + y ^ 2 < 1 := by
  by_contra hρ
  rw [not_lt] at hρ
  by_cases hy : y = 0
  · subst hy
    obtain ⟨b, hb⟩ : ∃ b, b = a₂ + x := ⟨_, rfl⟩
    obtain ⟨c, hc⟩ : ∃ c, c = a₁ + x * b := ⟨_, rfl⟩
    have e2 : a₂ = b - x := by rw [hb]; ring
    have e1 : a₁ = c - x * b := by rw [hc]; ring
    have e0 : a₀ = -(x * c) := by
      rw [e2, e1] at hre
      linear_combination hre
    rw [e2, e1, e0] at h1 h2 h4 h5
    rw [e0] at h3
    have hx : 1 ≤ x ^ 2 := by linarith
    have hxc : -1 < x * c ∧ x * c < 1 := by constructor <;> nlinarith
    have hc1 : c < 1 := by
      by_contra h
      rw [not_lt] at h
      have : 1 ≤ c ^ 2 := by nlinarith
      nlinarith
    have hq : 0 < 1 + x * b + x ^ 2 * c := by
      have : 0 < (1 - c) * (1 + x * b + x ^ 2 * c) := by linarith
      exact pos_of_mul_pos_right this (by linarith) 
    have f1 : 0 < (1 - x) * (1 + b + c) := by linarith
    have f2 : 0 < (1 + x) * (1 - b + c) := by linarith
    rcases le_or_gt 0 x with hx0 | hx0
    · have hx1 : 1 ≤ x := by nlinarith
      have g1 : x ≠ 1 := by rintro rfl; linarith
      have g2 : 1 < x := lt_of_le_of_ne hx1 (Ne.symm g1)
      have g3 : 1 + b + c < 0 := by
        by_contra h
        rw [not_lt] at h
        nlinarith
      nlinarith [mul_pos (by linarith : 0 < x - 1) (by linarith [hxc.2] : 0 < 1 - x * c)]
    · have hx1 : x ≤ -1 := by nlinarith
      have g1 : x ≠ -1 := by rintro rfl; linarith
      have g2 : x < -1 := lt_of_le_of_ne hx1 g1
      have g3 : 1 - b + c < 0 := by
        by_contra h
        rw [not_lt] at h
        nlinarith
      nlinarith [mul_pos (by linarith : 0 < -1 - x) (by linarith [hxc.1] : 0 < 1 + x * c)]
  · obtain ⟨ρ, hρ'⟩ : ∃ ρ, ρ = x ^ 2 + y ^ 2 := ⟨_, rfl⟩
    obtain ⟨t, ht⟩ : ∃ t, t = -(a₂ + 2 * x) := ⟨_, rfl⟩
    have e2 : a₂ = -t - 2 * x := by rw [ht]; ring
    have e1 : a₁ = ρ + 2 * x * t := by
      have : y * (a₁ - (ρ + 2 * x * t)) = 0 := by rw [hρ', ht]; linear_combination him
      rcases mul_eq_zero.mp this with h | h
      · exact absurd h hy
      · linarith
    have e0 : a₀ = -(t * ρ) := by
      rw [e1, e2, hρ'] at hre
      rw [hρ']
      linear_combination hre
    rw [← hρ'] at hρ
    rw [e0] at h3
    rw [e0, e1, e2] at h5
    have hx : x ^ 2 ≤ ρ := by rw [hρ']; nlinarith [sq_nonneg y]
    have key : (ρ - 1) * (1 + t ^ 2 * ρ) < 2 * t * x * (ρ - 1) := by nlinarith
    rcases eq_or_lt_of_le hρ with h | h
    · rw [← h] at key; linarith
    · have : 1 + t ^ 2 * ρ < 2 * t * x := by
        have h' : 0 < ρ - 1 := by linarith
        exact lt_of_mul_lt_mul_left (by linarith : (ρ - 1) * (1 + t ^ 2 * ρ) < (ρ - 1) * (2 * t * x)) h'.le
      nlinarith [sq_nonneg (1 - t * x), mul_nonneg (sq_nonneg t) (by linarith : 0 ≤ ρ - x ^ 2)]

/-- The criterion of Jury for cubics. -/
theorem damped_cubic {a₂ a₁ a₀ : ℚ} (h1 : 0 < 1 + a₂ + a₁ + a₀) (h2 : 0 < 1 - a₂ + a₁ - a₀) (h3 : a₀ ^ 2 < 1)
    (h4 : a₀ * a₂ - a₁ < 1 - a₀ ^ 2) (h5 : -(a₀ * a₂ - a₁) < 1 - a₀ ^ 2) : Damped (X ^ 3 + C a₂ * X ^ 2 + C a₁ * X + C a₀) := by
  intro z hz
  simp only [map_add, map_mul, map_pow, aeval_X, aeval_C] at hz
  have hre := congrArg Complex.re hz
  have him := congrArg Complex.im hz
  obtain ⟨x, y⟩ := z
  simp [pow_succ, Complex.mul_re, Complex.mul_im] at hre him
  have := cubic_root (a₂ := a₂) (a₁ := a₁) (a₀ := a₀) (x := x) (y := y) (by exact_mod_cast h1) (by exact_mod_cast h2) (by exact_mod_cast h3)
    (by exact_mod_cast h4) (by exact_mod_cast h5) (by linear_combination hre) (by linear_combination him)
  have h6 : ‖(⟨x, y⟩ : ℂ)‖ ^ 2 < 1 := by
    rw [Complex.sq_norm, Complex.normSq_mk]
    linarith
  nlinarith [norm_nonneg (⟨x, y⟩ : ℂ)]

end Recurrence
end Spine
