import Verif.Spec.Time
/-!
# Lemmas about kernel time
-/

namespace Spine

open F32

theorem i64_ok {n : Int} (h : InI64 n) : i64 n = .ok n := by
  unfold i64; exact if_pos h

theorem i64_small {n : Int} (h : |n| ≤ 2 ^ 62) : i64 n = .ok n := by
  rw [abs_le] at h; apply i64_ok; unfold InI64; omega

theorem i64_eq {n k : Int} (h : i64 n = .ok k) : k = n := by
  unfold i64 at h; split at h <;> cases h; rfl

/-- The 64 bit integer a `time_t` becomes on its way through a `float`. -/
def near (v : Int) : Int := roundAway (rnd v)

theorem near_cast (v : Int) : (near v : Rat) = rnd v := by
  obtain ⟨k, hk⟩ := rnd_isInt v
  rw [near, hk, roundAway_int]

theorem near_eq {v : Int} (h : |v| ≤ 2 ^ 24) : near v = v := by
  have := near_cast v
  rw [rnd_int h] at this; exact_mod_cast this

theorem near_mono {v w : Int} (h : v ≤ w) : near v ≤ near w := by
  have : rnd (v : Rat) ≤ rnd w := rnd_mono (by exact_mod_cast h)
  rw [← near_cast, ← near_cast] at this; exact_mod_cast this

theorem near_neg (v : Int) : near (-v) = - near v := by
  have := near_cast (-v)
  rw [Int.cast_neg, rnd_neg, ← near_cast] at this; exact_mod_cast this

theorem near_zero : near 0 = 0 := near_eq (by norm_num)

theorem pow2_normal {v : Int} (hv : v ≠ 0) : pow2 (-126) ≤ |(v : Rat)| := by
  have h1 : (1 : Rat) ≤ |(v : Rat)| := by
    have := Int.one_le_abs hv
    exact_mod_cast this
  refine le_trans ?_ h1
  have : pow2 (-126) ≤ pow2 0 := pow2_mono (by omega)
  exact this.trans (le_of_eq (by decide +kernel))

theorem rnd_int_err (v : Int) : |rnd v - v| ≤ |(v : Rat)| / 2 ^ 24 := by
  by_cases hv : v = 0
  · subst hv; simp
  · exact rnd_err (pow2_normal hv)

theorem near_err (v : Int) : |near v - v| * 2 ^ 24 ≤ |v| := by
  have h := rnd_int_err v
  rw [← near_cast, le_div_iff₀ (by norm_num)] at h
  exact_mod_cast h

theorem near_small {v : Int} (h : |v| ≤ 2 ^ 62) : |near v| ≤ 2 ^ 62 := by
  have hp : near (2 ^ 62) = 2 ^ 62 := by decide +kernel
  rw [abs_le] at h ⊢
  have h1 := near_mono h.2
  have h2 := near_mono h.1
  rw [near_neg] at h2
  constructor <;> omega

theorem magnitude_pos (m : Mag) : 0 < m.magnitude := by cases m <;> decide +kernel

theorem ratio_same (m : Mag) : KTime.ratio m m = 1 := by
  unfold KTime.ratio
  rw [div_self (magnitude_pos m).ne']
  decide +kernel

theorem fromOther_same (m : Mag) (v : Int) : KTime.fromOther m m v = i64 (near v) := by
  unfold KTime.fromOther
  rw [ratio_same, one_mul, rnd_rnd]; rfl

theorem fromOther_small (m : Mag) {v : Int} (h : |v| ≤ 2 ^ 24) : KTime.fromOther m m v = .ok v := by
  rw [fromOther_same, near_eq h, i64_small]
  exact h.trans (by norm_num)

theorem fromOther_mid (m : Mag) {v : Int} (h : |v| ≤ 2 ^ 62) : KTime.fromOther m m v = .ok (near v) := by
  rw [fromOther_same, i64_small (near_small h)]

/-! ## Conversions between units -/

theorem seconds_pos (m : Mag) : 0 < m.seconds := by cases m <;> decide +kernel

theorem per_pos (a b : Mag) : 0 < a.per b := div_pos (seconds_pos a) (seconds_pos b)

/-- The ratio the code computes with is within 13/8 units in the last place. -/
theorem ratio_err (a b : Mag) : |KTime.ratio a b - a.per b| ≤ a.per b * (13 / 8) / 2 ^ 24 := by
  cases a <;> cases b <;> decide +kernel

theorem ratio_low (a b : Mag) : pow2 (-100) ≤ KTime.ratio a b := by
  cases a <;> cases b <;> decide +kernel

theorem per_whole (a b : Mag) : (a.per b).num = 1 ∨ (a.per b).den = 1 := by
  cases a <;> cases b <;> decide +kernel

/-- Error of the product, given the error of the integer's conversion to `float`. -/
theorem product_err (a b : Mag) (v : Int) (c : Rat) (hc0 : 0 ≤ c) (hc1 : c ≤ 1) (hv : |rnd v - v| ≤ c * |(v : Rat)| / 2 ^ 24) :
    |rnd (KTime.ratio a b * rnd v) - a.per b * v| ≤ a.per b * |(v : Rat)| * (21 / 8 + c + 1 / 1000) / 2 ^ 24 := by
  by_cases h0 : v = 0
  · subst h0; simp
  have hk := per_pos a b
  have hr := ratio_err a b
  have hrl := ratio_low a b
  have hrpos : 0 < KTime.ratio a b := lt_of_lt_of_le (pow2_pos _) hrl
  generalize a.per b = k at *
  generalize KTime.ratio a b = r at *
  have hx1 : 1 ≤ |rnd v| := by
    rw [← near_cast]
    have : near v ≠ 0 := by
      rcases lt_or_gt_of_ne h0 with h | h
      · have := near_mono (show v ≤ -1 by omega)
        rw [near_eq (v := -1) (by norm_num)] at this; omega
      · have := near_mono (show 1 ≤ v by omega)
        rw [near_eq (v := 1) (by norm_num)] at this; omega
    exact_mod_cast Int.one_le_abs this
  generalize hx : rnd (v : Rat) = x at *
  have hV : 0 < |(v : Rat)| := abs_pos.mpr (by exact_mod_cast h0)
  -- the rounded product
  have hy : |rnd (r * x) - r * x| ≤ |r * x| / 2 ^ 24 := by
    apply rnd_err
    rw [abs_mul, abs_of_pos hrpos]
    calc pow2 (-126) ≤ pow2 (-100) := pow2_mono (by omega)
      _ ≤ r := hrl
      _ ≤ r * |x| := by nlinarith
  -- exact product against the intended value
  have hxv : |x| ≤ |(v : Rat)| * (1 + c / 2 ^ 24) := by
    have : |x| ≤ |x - v| + |(v : Rat)| := by
      have := abs_add_le (x - v) (v : Rat); rwa [sub_add_cancel] at this
    calc |x| ≤ |x - v| + |(v : Rat)| := this
      _ ≤ c * |(v : Rat)| / 2 ^ 24 + |(v : Rat)| := by linarith
      _ = _ := by ring
  have hrx : |r * x - k * v| ≤ k * |(v : Rat)| * (13 / 8 + c + 1 / 2000) / 2 ^ 24 := by
    have e : r * x - k * v = (r - k) * x + k * (x - v) := by ring
    rw [e]
    calc |(r - k) * x + k * (x - v)| ≤ |(r - k) * x| + |k * (x - v)| := abs_add_le _ _
      _ = |r - k| * |x| + k * |x - v| := by rw [abs_mul, abs_mul, abs_of_pos hk]
      _ ≤ (k * (13 / 8) / 2 ^ 24) * (|(v : Rat)| * (1 + c / 2 ^ 24)) + k * (c * |(v : Rat)| / 2 ^ 24) := by
        gcongr
      _ = k * |(v : Rat)| * (13 / 8 * (1 + c / 2 ^ 24) + c) / 2 ^ 24 := by ring
      _ ≤ _ := by
        have : 13 / 8 * (1 + c / 2 ^ 24) + c ≤ 13 / 8 + c + 1 / 2000 := by linarith
        gcongr
  have habs : |r * x| ≤ k * |(v : Rat)| * (1 + 1 / 4000) := by
    have : |r * x| ≤ |r * x - k * v| + |k * v| := by
      have := abs_add_le (r * x - k * v) (k * v); rwa [sub_add_cancel] at this
    rw [abs_mul k, abs_of_pos hk] at this
    have hkv : 0 < k * |(v : Rat)| := mul_pos hk hV
    have h2 : k * |(v : Rat)| * (13 / 8 + c + 1 / 2000) / 2 ^ 24 ≤ k * |(v : Rat)| * (1 / 4000) := by
      have h3 : (13 / 8 + c + 1 / 2000) / 2 ^ 24 ≤ 1 / 4000 := by
        rw [div_le_iff₀ (by norm_num)]; linarith
      rw [mul_div_assoc]
      exact mul_le_mul_of_nonneg_left h3 hkv.le
    linarith
  have e2 : rnd (r * x) - k * v = (rnd (r * x) - r * x) + (r * x - k * v) := by ring
  rw [e2]
  calc |(rnd (r * x) - r * x) + (r * x - k * v)| ≤ |rnd (r * x) - r * x| + |r * x - k * v| := abs_add_le _ _
    _ ≤ k * |(v : Rat)| * (1 + 1 / 4000) / 2 ^ 24 + k * |(v : Rat)| * (13 / 8 + c + 1 / 2000) / 2 ^ 24 := by
      have : |r * x| / 2 ^ 24 ≤ k * |(v : Rat)| * (1 + 1 / 4000) / 2 ^ 24 := by gcongr
      linarith
    _ = k * |(v : Rat)| * (21 / 8 + c + 3 / 4000) / 2 ^ 24 := by ring
    _ ≤ _ := by
      have hkv : 0 < k * |(v : Rat)| := mul_pos hk hV
      have h4 : (21 / 8 + c + 3 / 4000) ≤ 21 / 8 + c + 1 / 1000 := by linarith
      have h5 := mul_le_mul_of_nonneg_left h4 hkv.le
      exact div_le_div_of_nonneg_right h5 (by norm_num)

theorem product_err_any (a b : Mag) (v : Int) :
    |rnd (KTime.ratio a b * rnd v) - a.per b * v| ≤ a.per b * |(v : Rat)| / 2 ^ 22 := by
  have h := product_err a b v 1 (by norm_num) (by norm_num) (by rw [one_mul]; exact rnd_int_err v)
  refine h.trans ?_
  have : 0 ≤ a.per b * |(v : Rat)| := mul_nonneg (per_pos a b).le (abs_nonneg _)
  linarith

theorem product_err_small (a b : Mag) {v : Int} (hv : |v| ≤ 2 ^ 24) :
    |rnd (KTime.ratio a b * rnd v) - a.per b * v| ≤ a.per b * |(v : Rat)| * (27 / 10) / 2 ^ 24 := by
  have h := product_err a b v 0 (by norm_num) (by norm_num) (by rw [rnd_int hv]; simp)
  refine h.trans ?_
  have : 0 ≤ a.per b * |(v : Rat)| := mul_nonneg (per_pos a b).le (abs_nonneg _)
  linarith

end Spine
