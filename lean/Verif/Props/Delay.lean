import Verif.Model.Delay
import Verif.Props.Units
/-!
# C197: delays on Arduino, and delays in other units
-/

namespace Spine

/-- **C197.** `delay_ms` and `delay_us` on Arduino pass at least the time asked for exactly if it fits into the parameter of the function of the core; then they pass no more either. -/
theorem C197_arduino_exact {d : Int} (h : 0 ≤ d) (bits : Nat) :
    (d ≤ arduinoDelayMs d ↔ d < 2 ^ 32) ∧ (d ≤ arduinoDelayUs bits d ↔ d < 2 ^ bits) ∧ (d < 2 ^ 32 → (arduinoDelayMs d : Int) = d) ∧ (d < 2 ^ bits → (arduinoDelayUs bits d : Int) = d) := by
  have key : ∀ n : Nat, (d ≤ ((d % 2 ^ n).toNat : Int) ↔ d < 2 ^ n) ∧ (d < 2 ^ n → ((d % 2 ^ n).toNat : Int) = d) := by
    intro n
    have hp : (0 : Int) < 2 ^ n := by positivity
    rw [Int.toNat_of_nonneg (Int.emod_nonneg _ hp.ne')]
    refine ⟨⟨fun h1 => lt_of_le_of_lt h1 (Int.emod_lt_of_pos _ hp), fun h1 => (Int.emod_eq_of_lt h h1).ge⟩, fun h1 => Int.emod_eq_of_lt h h1⟩
  exact ⟨(key 32).1, (key bits).1, (key 32).2, (key bits).2⟩

/-- **C197.** A negative delay, such as the time until a moment that has passed, is not skipped: it lasts for at least 2^31 ms, more than 24 days. -/
theorem C197_negative {d : Int} (h : d < 0) (h' : -2 ^ 31 ≤ d) : 2 ^ 31 ≤ arduinoDelayMs d := by
  unfold arduinoDelayMs
  omega

/-- **C197**, partial. A delay in seconds, minutes, hours or days of up to 3000000 ms is converted to exactly as many ms, one in µs to the nearest number of ms.
Missing: longer delays, see the counterexamples. -/
theorem C197_units_partial (unit : Mag) {v : Int} (h0 : 0 ≤ v) (hv : v ≤ 3000000) (hk : unit.per .milli * (v : Rat) ≤ 3000000) :
    ∃ r, delayIn unit v = .ok r ∧ |(r : Rat) - unit.per .milli * v| ≤ 1 / 2 ∧ (arduinoDelayMs r : Int) = r ∧ ((∃ k : Int, unit.per .milli = k) → (r : Rat) = unit.per .milli * v) := by
  have hper : 0 ≤ unit.per .milli := by cases unit <;> norm_num [Mag.per, Mag.seconds]
  have hv' : (0 : Rat) ≤ (v : Rat) := by exact_mod_cast h0
  suffices H : ∃ r, delayIn unit v = .ok r ∧ |(r : Rat) - unit.per .milli * v| ≤ 1 / 2 by
    obtain ⟨r, h1, h2⟩ := H
    have h3 := abs_le.mp h2
    have hr0 : 0 ≤ r := by
      have : (-1 : Rat) < r := by nlinarith [mul_nonneg hper hv']
      have : -1 < r := by exact_mod_cast this
      omega
    have hr1 : r < 2 ^ 32 := by
      have : (r : Rat) < 2 ^ 32 := by linarith
      exact_mod_cast this
    refine ⟨r, h1, h2, (C197_arduino_exact hr0 0).2.2.1 hr1, ?_⟩
    rintro ⟨k, hk'⟩
    rw [hk'] at h2 ⊢
    have e : ((r - k * v : Int) : Rat) = (r : Rat) - k * v := by push_cast; ring
    rw [← e, ← Int.cast_abs] at h2
    have h4 : |r - k * v| < 1 := by
      have : ((|r - k * v| : Int) : Rat) < 1 := by linarith
      exact_mod_cast this
    have h5 : r = k * v := by have := Int.abs_lt_one_iff.mp h4; omega
    rw [h5]; push_cast; ring
  unfold delayIn
  split
  · subst_vars
    exact ⟨v, rfl, by norm_num [Mag.per, Mag.seconds]⟩
  · exact C32_nearest_partial unit .milli (by rw [abs_of_nonneg h0]; exact hv) (by rw [abs_of_nonneg hv']; exact hk)

/-- All units but µs are whole numbers of ms. -/
theorem C197_whole (unit : Mag) : (∃ k : Int, unit.per .milli = k) ↔ unit ≠ .micro := by
  constructor
  · rintro ⟨k, hk⟩ rfl
    have h : (k : Rat) * 1000 = 1 := by rw [← hk]; norm_num [Mag.per, Mag.seconds]
    have : k * 1000 = 1 := by exact_mod_cast h
    omega
  · intro h
    cases unit with
    | micro => exact absurd rfl h
    | milli => exact ⟨1, by norm_num [Mag.per, Mag.seconds]⟩
    | base => exact ⟨1000, by norm_num [Mag.per, Mag.seconds]⟩
    | minute => exact ⟨60000, by norm_num [Mag.per, Mag.seconds]⟩
    | hour => exact ⟨3600000, by norm_num [Mag.per, Mag.seconds]⟩
    | day => exact ⟨86400000, by norm_num [Mag.per, Mag.seconds]⟩

/-- Non-vacuity: the two seconds of `halt`. -/
example : delayIn .base 2 = .ok 2000 ∧ arduinoDelayMs 2000 = 2000 ∧ Mag.base.per .milli * 2 ≤ 3000000 := by
  refine ⟨by decide +kernel, by decide, by norm_num [Mag.per, Mag.seconds]⟩

/-- C197 is false: on AVR a delay of 65536 µs takes no time, and so does a delay of 2^32 ms on all boards. -/
theorem C197_wrap_counterexample : arduinoDelayUs 16 65536 = 0 ∧ arduinoDelayUs 16 70000 = 4464 ∧ arduinoDelayMs (2 ^ 32) = 0 := by decide

/-- C197 is false: a delay of 8389 s is 1 ms too short, one of 3 hours as well, one of a day 8 ms, and one of 500 µs is none. -/
theorem C197_units_counterexample :
    delayIn .base 8389 = .ok 8388999 ∧ delayIn .hour 3 = .ok 10799999 ∧ delayIn .day 1 = .ok 86399992 ∧ delayIn .micro 500 = .ok 0 := by
  refine ⟨?_, ?_, ?_, ?_⟩ <;> decide +kernel

end Spine
