import Verif.Props.Narrow
import Verif.Props.Text
/-!
# The text of kernel times on targets whose `time_t` has 32 bits: C163
-/

namespace Spine
namespace Narrow

private theorem ok_of_bind {α β : Type _} {x : Res α} {f : α → Res β} {y : β} (h : (x >>= f) = .ok y) : ∃ a, x = .ok a ∧ f a = .ok y := by
  cases x with
  | ok a => exact ⟨a, rfl, h⟩
  | error e => cases h

theorem toUnit_same {m u : Mag} {v r : Int} (h : toUnit m u v = .ok r) : Text.toUnit m u v = .ok r := by
  unfold toUnit at h
  unfold Text.toUnit
  split
  · next he => rwa [if_pos he] at h
  · next he =>
    rw [if_neg he] at h
    exact (((C163_operations u m v v).1 r).mp h).1

theorem reprParts_same {m : Mag} {v : Int} {p : Int × List Char} (h : reprParts m v = .ok p) : Text.reprParts m v = .ok p := by
  unfold reprParts at h
  unfold Text.reprParts
  obtain ⟨us, h0, h⟩ := ok_of_bind h
  rw [toUnit_same h0, res_bind_ok]
  split at h
  · next c => rw [if_pos c]; exact h
  next c =>
  rw [if_neg c]
  obtain ⟨ms, h1, h⟩ := ok_of_bind h
  rw [toUnit_same h1, res_bind_ok]
  split at h
  · next c => rw [if_pos c]; exact h
  next c =>
  rw [if_neg c]
  obtain ⟨s, h2, h⟩ := ok_of_bind h
  rw [toUnit_same h2, res_bind_ok]
  split at h
  · next c => rw [if_pos c]; exact h
  next c =>
  rw [if_neg c]
  obtain ⟨mn, h3, h⟩ := ok_of_bind h
  rw [toUnit_same h3, res_bind_ok]
  split at h
  · next c => rw [if_pos c]; exact h
  next c =>
  rw [if_neg c]
  obtain ⟨hr, h4, h⟩ := ok_of_bind h
  rw [toUnit_same h4, res_bind_ok]
  split at h
  · next c => rw [if_pos c]; exact h
  next c =>
  rw [if_neg c]
  obtain ⟨d, h5, h⟩ := ok_of_bind h
  rw [toUnit_same h5, res_bind_ok]
  split at h
  · next c => rw [if_pos c]; exact h
  next c =>
  rw [if_neg c]
  exact h

theorem toUnit_short {m u : Mag} {v r : Int} (hr : -2 ^ 31 ≤ r ∧ r < 2 ^ 31) (h : Text.toUnit m u v = .ok r) : toUnit m u v = .ok r := by
  unfold Text.toUnit at h
  unfold toUnit
  split
  · next he => rwa [if_pos he] at h
  · next he =>
    rw [if_neg he] at h
    exact ((C163_operations u m v v).1 r).mpr ⟨h, hr⟩

/-- C163 (partial). With 32 bits, the text of a time is either the same as with 64 bits or undefined; up to 2147 s it is the same. Missing: longer times (`C163_text_counterexample`). -/
theorem C163_text_partial (m : Mag) (v : Int) :
    (∀ t, repr m v = .ok t → Text.repr m v = .ok t) ∧ (0 ≤ v → m.seconds * (v : Rat) ≤ 2147 → ∃ t, repr m v = .ok t ∧ Text.repr m v = .ok t) := by
  have same : ∀ t, repr m v = .ok t → Text.repr m v = .ok t := by
    intro t h
    unfold repr at h
    obtain ⟨p, hp, h⟩ := ok_of_bind h
    unfold Text.repr
    rw [reprParts_same hp]
    exact h
  refine ⟨same, fun hv hk => ?_⟩
  suffices ∃ t, repr m v = .ok t by
    obtain ⟨t, ht⟩ := this
    exact ⟨t, ht, same t ht⟩
  have hv' : (0 : Rat) ≤ v := by exact_mod_cast hv
  have scale : ∀ u : Mag, m.per u * (v : Rat) = m.seconds * v / u.seconds := by
    intro u
    cases u <;> cases m <;> norm_num [Mag.per, Mag.seconds] <;> ring
  have hpos : 0 ≤ m.seconds * (v : Rat) := mul_nonneg (by cases m <;> norm_num [Mag.seconds]) hv'
  have key : ∀ u : Mag, ∃ r, toUnit m u v = .ok r := by
    intro u
    have hb : m.per u * (v : Rat) ≤ 2147000000 := by
      rw [scale u]
      generalize m.seconds * (v : Rat) = x at hk hpos
      cases u <;> simp only [Mag.seconds] <;> linarith
    obtain ⟨r, h, p, e⟩ := _root_.Spine.toUnit_err m u hv (by linarith)
    refine ⟨r, toUnit_short ⟨by omega, ?_⟩ h⟩
    have := (abs_le.mp e).2
    have : (r : Rat) < 2 ^ 31 := by linarith
    exact_mod_cast this
  obtain ⟨us, h0⟩ := key .micro
  obtain ⟨ms, h1⟩ := key .milli
  obtain ⟨s, h2⟩ := key .base
  obtain ⟨mn, h3⟩ := key .minute
  obtain ⟨hr, h4⟩ := key .hour
  obtain ⟨d, h5⟩ := key .day
  have : ∃ p, reprParts m v = .ok p := by
    simp only [reprParts, h0, h1, h2, h3, h4, h5, res_bind_ok, res_pure]
    split <;> [exact ⟨_, rfl⟩; skip]
    split <;> [exact ⟨_, rfl⟩; skip]
    split <;> [exact ⟨_, rfl⟩; skip]
    split <;> [exact ⟨_, rfl⟩; skip]
    split <;> [exact ⟨_, rfl⟩; skip]
    split <;> exact ⟨_, rfl⟩
  obtain ⟨p, hp⟩ := this
  rw [repr, hp]
  exact ⟨_, rfl⟩

example : repr .base 2147 = .ok ("36m".toList) ∧ Text.repr .base 2147 = .ok ("36m".toList) := by decide +kernel

end Narrow
end Spine
