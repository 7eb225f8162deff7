import Verif.Props.Text
/-!
# What becomes of negative times, C86
-/

namespace Spine
open Text

/-- **C86, exactly:** a negative time is written with a sign, in microseconds whatever its size, and `parse_time` throws on the text. -/
theorem C86_negative (m : Mag) {v : Int} (hv : v < 0) (hk : m.per .micro * |(v : Rat)| ≤ 2 ^ 61) :
    ∃ n : Nat, 0 < n ∧ Text.repr m v = .ok ('-' :: decimalNat n ++ ['u', 's']) ∧ abs ((n : Rat) - m.per .micro * |(v : Rat)|) ≤ 1 / 2 + m.per .micro * |(v : Rat)| / 2 ^ 22 ∧
      parseTime ('-' :: decimalNat n ++ ['u', 's']) = .error .exception := by
  have hv' : (v : Rat) ≤ -1 := by exact_mod_cast (by omega : v ≤ -1)
  have hone : 1 ≤ m.per .micro := by cases m <;> norm_num [Mag.per, Mag.seconds]
  obtain ⟨r, hr, hb⟩ : ∃ r, toUnit m .micro v = .ok r ∧ |(r : Rat) - m.per .micro * v| ≤ 1 / 2 + m.per .micro * |(v : Rat)| / 2 ^ 22 := by
    unfold toUnit
    split
    · next h =>
      subst h
      refine ⟨v, rfl, ?_⟩
      have : Mag.micro.per .micro = 1 := by norm_num [Mag.per, Mag.seconds]
      rw [this, one_mul, sub_self, abs_zero]
      positivity
    · exact C32_error_partial m .micro hk
  rw [abs_of_neg (by linarith : (v : Rat) < 0)] at hk hb ⊢
  have hs : 1 ≤ m.per .micro * -(v : Rat) := by nlinarith
  obtain ⟨hb1, hb2⟩ := abs_le.mp hb
  have hneg : r < 0 := by
    have : (r : Rat) < 0 := by linarith
    exact_mod_cast this
  have hnat : ((r.natAbs : Nat) : Rat) = -(r : Rat) := by
    have : ((r.natAbs : Nat) : Int) = -r := by omega
    rw [← Int.cast_natCast, this, Int.cast_neg]
  have hlen : (decimalNat r.natAbs).length ≤ 20 := by
    refine decimalNat_length (k := 19) ?_
    have : ((r.natAbs : Nat) : Rat) < 10 ^ 20 := by rw [hnat]; linarith
    exact_mod_cast this
  refine ⟨r.natAbs, by omega, ?_, ?_, ?_⟩
  · rw [Text.repr, reprParts, hr, res_bind_ok]
    rw [if_pos (by omega : r < 1000)]
    simp only [res_pure, res_bind_ok, decimal, if_pos hneg]
    rw [if_neg (by simp only [List.length_append, List.length_cons, List.length_nil]; omega)]
  · rw [hnat, abs_le]
    constructor <;> linarith
  · exact C58_throws.mpr ⟨[], '-', _, rfl, by simp, by decide, .inl rfl⟩

/-- So, within the range, a text written for a time is read back if and only if the time is not negative. -/
theorem C86_read_iff (m : Mag) {v : Int} (hk : m.per .micro * |(v : Rat)| ≤ 2 ^ 61) :
    (∃ text r, Text.repr m v = .ok text ∧ parseTime text = .ok (some r)) ↔ 0 ≤ v := by
  refine ⟨fun ⟨text, r, h1, h2⟩ => ?_, fun hv => ?_⟩
  · by_contra hv
    obtain ⟨n, -, e, -, h3⟩ := C86_negative m (by omega) hk
    rw [h1] at e
    obtain rfl := Except.ok.inj e
    rw [h2] at h3
    cases h3
  · have hv' : (0 : Rat) ≤ v := by exact_mod_cast hv
    rw [abs_of_nonneg hv'] at hk
    obtain ⟨text, u, n, h1, -, -, -, h2⟩ := C86_repr_partial m hv hk
    exact ⟨text, _, h1, h2⟩

/-- Non-vacuity: two days ago. -/
example : Mag.day.per .micro * |((-2 : Int) : Rat)| ≤ 2 ^ 61 ∧ Text.repr .day (-2) = .ok "-172800000000us".toList := by
  refine ⟨by norm_num [Mag.per, Mag.seconds], by decide +kernel⟩

end Spine
