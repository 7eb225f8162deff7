import Verif.Model.Platform
import Verif.Proofs.Timers
/-!
# C129: measuring time with `micros()`
-/

namespace Spine

theorem micros_sub {a c : Int} (h0 : 0 ≤ a) (h1 : a < 2 ^ 32) (h2 : 0 ≤ c) (h3 : c < 2 ^ 32) :
    KTime.sub .micro .micro a c = .ok (a - near c) ∧ |near c - c| ≤ 255 := by
  have hb : |c| / 2 ^ 24 ≤ 255 := by rw [abs_of_nonneg h2]; omega
  have hn := (near_bound c).trans hb
  rw [abs_le] at hn
  unfold KTime.sub
  rw [fromOther_mid .micro (by rw [abs_le]; constructor <;> omega), res_bind_ok, i64_small (by rw [abs_le]; constructor <;> omega)]
  exact ⟨rfl, abs_le.mpr hn⟩

/-- C129 (partial). The difference of two readings of `micros()`, taken `start` and `stop` µs after the clock was zero, is the time in between, exactly during the first 16.7 s
(of the first reading) after the clock was zero, and within 255 µs if the clock has not rolled around in between. Missing: readings on both sides of a rollover
(`C129_rollover_counterexample`), and the last 255 µs (`C129_rounding_counterexample`). -/
theorem C129_difference_partial {start stop : Nat} (hle : start ≤ stop) (hsame : start / 2 ^ 32 = stop / 2 ^ 32) :
    ∃ d, KTime.sub .micro .micro (arduinoMicros stop) (arduinoMicros start) = .ok d ∧ |d - (stop - start : Nat)| ≤ 255 ∧
      (start % 2 ^ 32 ≤ 2 ^ 24 → d = (stop - start : Nat)) := by
  have e1 : (arduinoMicros stop) = (stop % 2 ^ 32 : Nat) := by simp [arduinoMicros]
  have e2 : (arduinoMicros start) = (start % 2 ^ 32 : Nat) := by simp [arduinoMicros]
  obtain ⟨h1, h2⟩ := micros_sub (a := arduinoMicros stop) (c := arduinoMicros start) (by rw [e1]; omega) (by rw [e1]; omega) (by rw [e2]; omega) (by rw [e2]; omega)
  refine ⟨_, h1, ?_, fun hs => ?_⟩
  · rw [abs_le] at h2 ⊢
    rw [e1] at *
    rw [e2] at *
    omega
  · have : near (arduinoMicros start) = arduinoMicros start := near_eq (by rw [abs_le, e2]; omega)
    rw [this, e1, e2]
    omega

/-- Non-trivial case: in the second period of the clock. -/
example : (2 ^ 32 + 5000) / 2 ^ 32 = (2 ^ 32 + 3000000000) / 2 ^ 32 ∧
    KTime.sub .micro .micro (arduinoMicros (2 ^ 32 + 3000000000)) (arduinoMicros (2 ^ 32 + 5000)) = .ok 2999995000 := by decide +kernel

/-- C129 is false whenever the clock rolls around in between: the difference is 2^32 µs short, and negative for all times up to 71 min. -/
theorem C129_rollover_counterexample {start stop : Nat} (hle : start ≤ stop) (hnext : stop / 2 ^ 32 = start / 2 ^ 32 + 1) :
    ∃ d, KTime.sub .micro .micro (arduinoMicros stop) (arduinoMicros start) = .ok d ∧ |d - ((stop - start : Nat) - 2 ^ 32)| ≤ 255 ∧
      (stop - start < 2 ^ 32 - 255 → d < 0) := by
  have e1 : (arduinoMicros stop) = (stop % 2 ^ 32 : Nat) := by simp [arduinoMicros]
  have e2 : (arduinoMicros start) = (start % 2 ^ 32 : Nat) := by simp [arduinoMicros]
  obtain ⟨h1, h2⟩ := micros_sub (a := arduinoMicros stop) (c := arduinoMicros start) (by rw [e1]; omega) (by rw [e1]; omega) (by rw [e2]; omega) (by rw [e2]; omega)
  rw [abs_le] at h2
  refine ⟨_, h1, ?_, fun hs => ?_⟩
  · rw [abs_le]
    rw [e1] at *
    rw [e2] at *
    omega
  · rw [e1] at *
    rw [e2] at *
    omega

example : KTime.sub .micro .micro (arduinoMicros (2 ^ 32 + 10)) (arduinoMicros (2 ^ 32 - 1000)) = .ok (-4294966262) := by decide +kernel

/-- C129 is false of single µs, even without a rollover: of two readings at the same time, 17 s after the clock was zero, the difference is not zero. -/
theorem C129_rounding_counterexample : KTime.sub .micro .micro (arduinoMicros 17000001) (arduinoMicros 17000001) = .ok 1 := by decide +kernel

/-- C129 (partial). On Zephyr `micros()` and `millis()` tell the same time, up to the ms, for the first 71 min. -/
theorem C129_zephyr_partial {hz ticks : Nat} (hz0 : 0 < hz) (h : (ticks * 1000000 + hz / 2) / hz < 2 ^ 32) :
    0 ≤ zephyrMicros hz ticks - zephyrMillis hz ticks * 1000 ∧ zephyrMicros hz ticks - zephyrMillis hz ticks * 1000 ≤ 1000 := by
  have e1 : zephyrMicros hz ticks = ((ticks * 1000000 + hz / 2) / hz : Nat) := by
    unfold zephyrMicros
    have : ((ticks : Int) * 1000000 + (hz : Int) / 2) / hz = (((ticks * 1000000 + hz / 2) / hz : Nat) : Int) := by push_cast; rfl
    rw [this]
    exact Int.emod_eq_of_lt (Int.natCast_nonneg _) (by exact_mod_cast h)
  have e2 : zephyrMillis hz ticks = (ticks * 1000 / hz : Nat) := by unfold zephyrMillis; push_cast; rfl
  rw [e1, e2]
  have h1 : ticks * 1000 / hz * 1000 ≤ (ticks * 1000000 + hz / 2) / hz := by
    rw [Nat.le_div_iff_mul_le hz0]
    have := Nat.div_mul_le_self (ticks * 1000) hz
    nlinarith [Nat.zero_le (hz / 2)]
  have h2 : (ticks * 1000000 + hz / 2) / hz < ticks * 1000 / hz * 1000 + 1001 := by
    rw [Nat.div_lt_iff_lt_mul hz0]
    have h3 := Nat.lt_div_mul_add (a := ticks * 1000) hz0
    have h4 : hz / 2 ≤ hz := Nat.div_le_self _ _
    nlinarith
  omega

example : zephyrMicros 32768 123456789 = 3767602203 ∧ zephyrMillis 32768 123456789 = 3767602 := by decide +kernel

/-- After that `micros()` starts again while `millis()` goes on: for every tick rate and every later time they differ by a multiple of 2^32 µs. -/
theorem C129_zephyr_counterexample {hz ticks : Nat} (hz0 : 0 < hz) (h : 2 ^ 32 ≤ (ticks * 1000000 + hz / 2) / hz) :
    zephyrMicros hz ticks + 2 ^ 32 ≤ (zephyrMillis hz ticks + 1) * 1000 := by
  have e1 : zephyrMicros hz ticks = ((ticks * 1000000 + hz / 2) / hz % 2 ^ 32 : Nat) := by unfold zephyrMicros; push_cast; rfl
  have e2 : zephyrMillis hz ticks = (ticks * 1000 / hz : Nat) := by unfold zephyrMillis; push_cast; rfl
  rw [e1, e2]
  have h2 : (ticks * 1000000 + hz / 2) / hz < ticks * 1000 / hz * 1000 + 1001 := by
    rw [Nat.div_lt_iff_lt_mul hz0]
    have h3 := Nat.lt_div_mul_add (a := ticks * 1000) hz0
    have h4 : hz / 2 ≤ hz := Nat.div_le_self _ _
    nlinarith
  omega

example : zephyrMicros 10000 (10000 * 4295) = 32704 ∧ zephyrMillis 10000 (10000 * 4295) = 4295000 := by decide +kernel

end Spine
