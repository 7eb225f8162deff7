import Mathlib.Data.Rat.Floor
import Mathlib.Algebra.Order.Archimedean.Basic
import Mathlib.Tactic.Linarith
import Mathlib.Tactic.Positivity
import Mathlib.Tactic.FieldSimp
import Mathlib.Tactic.NormNum
import Mathlib.Tactic.Ring
/-!
# IEEE-754 binary32 rounding

The C++ code uses `float`; this file gives its arithmetic: an operation computes the exact result and rounds it to the
nearest binary32 number, ties to even, with gradual underflow (`rnd`).  Numbers are rationals.  Overflow to
infinity is not part of `rnd`; models which can overflow treat it separately.  Assumed of the compiler:
`FLT_EVAL_METHOD` is 0 and no fused operations or fast-math.
-/

namespace Spine.F32

/-- `2 ^ e`. -/
def pow2 : Int → Rat
  | .ofNat n => ((2 ^ n : Nat) : Rat)
  | .negSucc n => 1 / ((2 ^ (n + 1) : Nat) : Rat)

/-- Floor of the binary logarithm of a positive number. -/
def ilog2 (q : Rat) : Int :=
  let k : Int := (Nat.log2 q.num.toNat : Int) - (Nat.log2 q.den : Int)
  if pow2 k ≤ q then k else k - 1

/-- Round to the nearest integer, ties to even. -/
def rne (q : Rat) : Int :=
  if q - ⌊q⌋ < 1 / 2 then ⌊q⌋
  else if 1 / 2 < q - ⌊q⌋ then ⌊q⌋ + 1
  else if ⌊q⌋ % 2 = 0 then ⌊q⌋ else ⌊q⌋ + 1

/-- Exponent of the last place of a number: 24 bits of significand, at least `2 ^ -149`. -/
def expo (q : Rat) : Int := max (ilog2 |q| - 23) (-149)

/-- Round to the nearest multiple of `2 ^ e`, ties to even. -/
def grid (e : Int) (q : Rat) : Rat := rne (q / pow2 e) * pow2 e

/-- Round to the nearest binary32 number, ties to even. -/
def rnd (q : Rat) : Rat := if q = 0 then 0 else grid (expo q) q

/-- `std::round`: to the nearest integer, ties away from zero. -/
def roundAway (q : Rat) : Int := if 0 ≤ q then ⌊q + 1 / 2⌋ else -⌊-q + 1 / 2⌋

/-! ## Lemmas -/

theorem pow2_eq (e : Int) : pow2 e = (2 : Rat) ^ e := by
  cases e with
  | ofNat n => simp [pow2]
  | negSucc n => simp [pow2, zpow_negSucc]

theorem pow2_pos (e : Int) : 0 < pow2 e := by rw [pow2_eq]; exact zpow_pos (by norm_num) e

theorem pow2_succ (e : Int) : pow2 (e + 1) = 2 * pow2 e := by
  rw [pow2_eq, pow2_eq, zpow_add₀ (by norm_num), zpow_one, mul_comm]

theorem pow2_add (a b : Int) : pow2 (a + b) = pow2 a * pow2 b := by
  rw [pow2_eq, pow2_eq, pow2_eq, zpow_add₀ (by norm_num)]

theorem pow2_mono {a b : Int} (h : a ≤ b) : pow2 a ≤ pow2 b := by
  rw [pow2_eq, pow2_eq]; exact zpow_le_zpow_right₀ (by norm_num) h

theorem pow2_lt {a b : Int} (h : a < b) : pow2 a < pow2 b := by
  rw [pow2_eq, pow2_eq]; exact zpow_lt_zpow_right₀ (by norm_num) h

theorem lt_of_pow2_lt {a b : Int} (h : pow2 a < pow2 b) : a < b := by
  rcases lt_or_ge a b with h1 | h1
  · exact h1
  · exact absurd (pow2_mono h1) (not_le.mpr h)

theorem pow2_nat (n : Nat) : pow2 n = ((2 ^ n : Nat) : Rat) := rfl

theorem ilog2_spec {q : Rat} (hq : 0 < q) : pow2 (ilog2 q) ≤ q ∧ q < pow2 (ilog2 q + 1) := by
  have hn : 0 < q.num := Rat.num_pos.mpr hq
  have hd : 0 < q.den := q.den_pos
  have hn' : q.num.toNat ≠ 0 := by omega
  have hcast : (q.num.toNat : Rat) = q.num := by
    have : (q.num.toNat : Int) = q.num := by omega
    rw [← this, Int.toNat_natCast]; rfl
  have h1 : ((2 ^ Nat.log2 q.num.toNat : Nat) : Rat) ≤ q.num := by
    rw [← hcast]; exact_mod_cast Nat.log2_self_le hn'
  have h2 : (q.num : Rat) < ((2 ^ (Nat.log2 q.num.toNat + 1) : Nat) : Rat) := by
    rw [← hcast]; exact_mod_cast Nat.lt_log2_self
  have h3 : ((2 ^ Nat.log2 q.den : Nat) : Rat) ≤ q.den := by exact_mod_cast Nat.log2_self_le (by omega)
  have h4 : (q.den : Rat) < ((2 ^ (Nat.log2 q.den + 1) : Nat) : Rat) := by exact_mod_cast Nat.lt_log2_self
  have hdq : (0 : Rat) < q.den := by exact_mod_cast hd
  have hqe : q * q.den = q.num := Rat.mul_den_eq_num q
  generalize ha : Nat.log2 q.num.toNat = a at *
  generalize hb : Nat.log2 q.den = b at *
  rw [← pow2_nat] at h1 h2 h3 h4
  -- upper bound by k + 1, lower bound by k - 1
  have hup : q < pow2 ((a : Int) - b + 1) := by
    by_contra hc
    push Not at hc
    have : pow2 ((a : Int) - b + 1) * pow2 b ≤ q * q.den := by
      apply mul_le_mul hc h3 (pow2_pos _).le hq.le
    rw [← pow2_add, hqe] at this
    have e : (a : Int) - b + 1 + b = ((a + 1 : Nat) : Int) := by push_cast; ring
    rw [e] at this
    linarith
  have hlow : pow2 ((a : Int) - b - 1) < q := by
    by_contra hc
    push Not at hc
    have : q * q.den < pow2 ((a : Int) - b - 1) * pow2 ((b + 1 : Nat) : Int) := by
      apply mul_lt_mul' hc h4 hdq.le (pow2_pos _)
    rw [← pow2_add, hqe] at this
    have e : (a : Int) - b - 1 + ((b + 1 : Nat) : Int) = (a : Int) := by push_cast; ring
    rw [e] at this
    linarith
  unfold ilog2
  rw [ha, hb]
  simp only
  split
  · next h => exact ⟨h, hup⟩
  · next h =>
    refine ⟨hlow.le, ?_⟩
    rw [sub_add_cancel]; exact not_le.mp h

theorem rne_int (n : Int) : rne n = n := by simp [rne]

theorem rne_err (q : Rat) : |(rne q : Rat) - q| ≤ 1 / 2 := by
  have h1 := Int.floor_le q
  have h2 := Int.lt_floor_add_one q
  unfold rne
  rw [abs_le]
  split
  · constructor <;> linarith
  · split
    · push_cast; constructor <;> linarith
    · split
      · constructor <;> linarith
      · push_cast; constructor <;> linarith

theorem rne_mono {p q : Rat} (h : p ≤ q) : rne p ≤ rne q := by
  have hf := Int.floor_mono h
  rcases eq_or_lt_of_le hf with he | hl
  · unfold rne
    rw [he]
    generalize ⌊q⌋ = f
    repeat' split
    all_goals first | omega | (exfalso; linarith)
  · have a1 : rne p ≤ ⌊p⌋ + 1 := by unfold rne; repeat' split <;> omega
    have a2 : ⌊q⌋ ≤ rne q := by unfold rne; repeat' split <;> omega
    omega

theorem rne_neg (q : Rat) : rne (-q) = - rne q := by
  by_cases hi : (⌊q⌋ : Rat) = q
  · rw [← hi]
    have : -((⌊q⌋ : Int) : Rat) = ((-⌊q⌋ : Int) : Rat) := by push_cast; rfl
    rw [this, rne_int, rne_int]
  · have h1 := Int.floor_le q
    have h2 := Int.lt_floor_add_one q
    have h3 : (⌊q⌋ : Rat) < q := lt_of_le_of_ne h1 hi
    have hf : ⌊-q⌋ = -⌊q⌋ - 1 := by
      rw [Int.floor_eq_iff]; push_cast; constructor <;> linarith
    unfold rne
    rw [hf]
    push_cast
    generalize hg : ⌊q⌋ = f at *
    repeat' split
    all_goals first | omega | (exfalso; linarith)

theorem grid_err (e : Int) (q : Rat) : |grid e q - q| ≤ pow2 e / 2 := by
  have hp := pow2_pos e
  have h := rne_err (q / pow2 e)
  have : grid e q - q = (rne (q / pow2 e) - q / pow2 e) * pow2 e := by
    unfold grid; field_simp
  rw [this, abs_mul, abs_of_pos hp]
  nlinarith

theorem grid_mono {e : Int} {p q : Rat} (h : p ≤ q) : grid e p ≤ grid e q := by
  have hp := pow2_pos e
  unfold grid
  have : rne (p / pow2 e) ≤ rne (q / pow2 e) := rne_mono (by gcongr)
  have : (rne (p / pow2 e) : Rat) ≤ rne (q / pow2 e) := by exact_mod_cast this
  gcongr

/-- Multiples of the unit are kept. -/
theorem grid_mul (e : Int) (n : Int) : grid e (n * pow2 e) = n * pow2 e := by
  have hp := (pow2_pos e).ne'
  unfold grid
  rw [mul_div_assoc, div_self hp, mul_one, rne_int]

theorem grid_pow2 {e k : Int} (h : e ≤ k) : grid e (pow2 k) = pow2 k := by
  have : pow2 k = ((2 ^ (k - e).toNat : Int) : Rat) * pow2 e := by
    have h1 : k = ((k - e).toNat : Int) + e := by omega
    conv_lhs => rw [h1, pow2_add, pow2_nat]
    push_cast; rfl
  rw [this, grid_mul]

theorem expo_neg (q : Rat) : expo (-q) = expo q := by unfold expo; rw [abs_neg]

theorem rnd_neg (q : Rat) : rnd (-q) = - rnd q := by
  unfold rnd
  by_cases h : q = 0
  · simp [h]
  · rw [if_neg h, if_neg (by simpa using h), expo_neg]
    unfold grid
    rw [neg_div, rne_neg]; push_cast; ring

@[simp] theorem rnd_zero : rnd 0 = 0 := by simp [rnd]

theorem rnd_nonneg {q : Rat} (h : 0 ≤ q) : 0 ≤ rnd q := by
  unfold rnd
  split
  · rfl
  · have := grid_mono (e := expo q) h
    have h0 : grid (expo q) 0 = 0 := by
      have := grid_mul (expo q) 0
      simpa using this
    linarith

theorem rnd_mono_pos {p q : Rat} (hp : 0 < p) (h : p ≤ q) : rnd p ≤ rnd q := by
  have hq : 0 < q := lt_of_lt_of_le hp h
  have sp := ilog2_spec hp
  have sq := ilog2_spec hq
  have hl : ilog2 p ≤ ilog2 q := by
    have : pow2 (ilog2 p) < pow2 (ilog2 q + 1) := lt_of_le_of_lt (sp.1.trans h) sq.2
    have := lt_of_pow2_lt this; omega
  unfold rnd
  rw [if_neg hp.ne', if_neg hq.ne']
  have ep : expo p = max (ilog2 p - 23) (-149) := by rw [expo, abs_of_pos hp]
  have eq : expo q = max (ilog2 q - 23) (-149) := by rw [expo, abs_of_pos hq]
  by_cases he : expo p = expo q
  · rw [he]; exact grid_mono h
  · have hlt : ilog2 p < ilog2 q := by omega
    have h1 : grid (expo p) p ≤ pow2 (ilog2 q) := by
      have a : p ≤ pow2 (ilog2 q) := sp.2.le.trans (pow2_mono (by omega))
      have := grid_mono (e := expo p) a
      rwa [grid_pow2 (by omega)] at this
    have h2 : pow2 (ilog2 q) ≤ grid (expo q) q := by
      have := grid_mono (e := expo q) sq.1
      rwa [grid_pow2 (by omega)] at this
    exact h1.trans h2

/-- Rounding is monotone. -/
theorem rnd_mono {p q : Rat} (h : p ≤ q) : rnd p ≤ rnd q := by
  rcases lt_trichotomy p 0 with hp | hp | hp
  · rcases lt_or_ge q 0 with hq | hq
    · have := rnd_mono_pos (p := -q) (q := -p) (by linarith) (by linarith)
      rw [rnd_neg, rnd_neg] at this; linarith
    · have h1 := rnd_nonneg hq
      have h2 := rnd_nonneg (q := -p) (by linarith)
      rw [rnd_neg] at h2; linarith
  · subst hp; rw [rnd_zero]; exact rnd_nonneg h
  · exact rnd_mono_pos hp h

theorem rnd_exact_lt {m : Int} {e : Int} (hm : |m| < 2 ^ 24) (he : -149 ≤ e) : rnd (m * pow2 e) = m * pow2 e := by
  unfold rnd
  split
  · next h => exact h.symm
  · next h =>
    have hpos : 0 < |(m : Rat) * pow2 e| := abs_pos.mpr h
    have sp := ilog2_spec hpos
    have hlt : |(m : Rat) * pow2 e| < pow2 (24 + e) := by
      rw [abs_mul, abs_of_pos (pow2_pos e), pow2_add]
      have : |(m : Rat)| < 2 ^ 24 := by exact_mod_cast hm
      have h24 : pow2 24 = 2 ^ 24 := by rw [pow2_eq]; norm_cast
      rw [h24]
      exact mul_lt_mul_of_pos_right this (pow2_pos e)
    have hexp : ilog2 |(m : Rat) * pow2 e| < 24 + e := lt_of_pow2_lt (lt_of_le_of_lt sp.1 hlt)
    have hx : expo (m * pow2 e) ≤ e := by unfold expo; omega
    have : (m : Rat) * pow2 e = ((m * 2 ^ (e - expo (m * pow2 e)).toNat : Int) : Rat) * pow2 (expo (m * pow2 e)) := by
      have h1 : e = ((e - expo (m * pow2 e)).toNat : Int) + expo (m * pow2 e) := by omega
      generalize expo (m * pow2 e) = k at *
      conv_lhs => rw [h1, pow2_add, pow2_nat]
      push_cast; ring
    generalize expo (m * pow2 e) = k at *
    rw [this, grid_mul]

/-- Numbers of at most 24 bits are representable. -/
theorem rnd_exact {m : Int} {e : Int} (hm : |m| ≤ 2 ^ 24) (he : -149 ≤ e) : rnd (m * pow2 e) = m * pow2 e := by
  rcases lt_or_eq_of_le hm with h | h
  · exact rnd_exact_lt h he
  · rcases abs_choice m with hc | hc
    · have : (m : Rat) * pow2 e = ((2 ^ 23 : Int) : Rat) * pow2 (e + 1) := by
        rw [pow2_succ, ← hc, h]; push_cast; ring
      rw [this]; exact rnd_exact_lt (by norm_num) (by omega)
    · have hm' : m = -2 ^ 24 := by omega
      have : (m : Rat) * pow2 e = ((-2 ^ 23 : Int) : Rat) * pow2 (e + 1) := by
        rw [pow2_succ, hm']; push_cast; ring
      rw [this]; exact rnd_exact_lt (by norm_num) (by omega)

theorem rnd_int {n : Int} (h : |n| ≤ 2 ^ 24) : rnd n = n := by
  have := rnd_exact (m := n) (e := 0) h (by omega)
  simpa [pow2_eq] using this

/-- Relative error in the normal range. -/
theorem rnd_err {q : Rat} (h : pow2 (-126) ≤ |q|) : |rnd q - q| ≤ |q| / 2 ^ 24 := by
  have hpos : 0 < |q| := lt_of_lt_of_le (pow2_pos _) h
  have h0 : q ≠ 0 := abs_pos.mp hpos
  have sp := ilog2_spec hpos
  unfold rnd
  rw [if_neg h0]
  have hl : -126 ≤ ilog2 |q| := by
    have := lt_of_pow2_lt (lt_of_le_of_lt h sp.2); omega
  have he : expo q = ilog2 |q| - 23 := by unfold expo; omega
  have := grid_err (expo q) q
  refine this.trans ?_
  have h2 : pow2 (ilog2 |q|) = pow2 (expo q) * 2 ^ 23 := by
    have : ilog2 |q| = expo q + 23 := by omega
    rw [this, pow2_add]; congr 1
  have h3 := sp.1
  rw [h2] at h3
  linarith

/-- A rounded number is a 24 bit integer times a power of two. -/
theorem rnd_form (q : Rat) : ∃ m e : Int, |m| ≤ 2 ^ 24 ∧ -149 ≤ e ∧ rnd q = m * pow2 e := by
  by_cases h : q = 0
  · exact ⟨0, 0, by norm_num, by norm_num, by simp [h]⟩
  · refine ⟨rne (q / pow2 (expo q)), expo q, ?_, le_max_right _ _, by rw [rnd, if_neg h, grid]⟩
    have sp := ilog2_spec (abs_pos.mpr h)
    have hx : |q| ≤ pow2 (24 + expo q) := sp.2.le.trans (pow2_mono (by unfold expo; omega))
    have hp := pow2_pos (expo q)
    have h24 : pow2 24 = 2 ^ 24 := by rw [pow2_eq]; norm_cast
    rw [pow2_add, h24, abs_le] at hx
    have h1 : q / pow2 (expo q) ≤ ((2 ^ 24 : Int) : Rat) := by
      rw [div_le_iff₀ hp]; push_cast; linarith [hx.2]
    have h2 : ((-2 ^ 24 : Int) : Rat) ≤ q / pow2 (expo q) := by
      rw [le_div_iff₀ hp]; push_cast; linarith [hx.1]
    have h3 := rne_mono h1
    have h4 := rne_mono h2
    rw [rne_int] at h3 h4
    rw [abs_le]; constructor <;> omega

theorem rnd_rnd (q : Rat) : rnd (rnd q) = rnd q := by
  obtain ⟨m, e, h1, h2, h3⟩ := rnd_form q
  rw [h3, rnd_exact h1 h2]

/-- An integer rounds to an integer. -/
theorem rnd_isInt (n : Int) : ∃ k : Int, rnd n = k := by
  by_cases h : |n| ≤ 2 ^ 24
  · exact ⟨n, rnd_int h⟩
  · push Not at h
    have hn : (n : Rat) ≠ 0 := by
      intro h0
      have : n = 0 := by exact_mod_cast h0
      subst this; norm_num at h
    have sp := ilog2_spec (abs_pos.mpr hn)
    have h24 : pow2 24 = 2 ^ 24 := by rw [pow2_eq]; norm_cast
    have : pow2 24 < pow2 (ilog2 |(n : Rat)| + 1) := by
      refine lt_of_lt_of_le ?_ sp.2.le
      rw [h24]; exact_mod_cast h
    have hl := lt_of_pow2_lt this
    have he : 0 ≤ expo n := by unfold expo; omega
    rw [rnd, if_neg hn, grid]
    obtain ⟨k, hk⟩ := Int.eq_ofNat_of_zero_le he
    rw [hk, pow2_nat]
    exact ⟨rne ((n : Rat) / ((2 ^ k : Nat) : Rat)) * ((2 ^ k : Nat) : Int), by push_cast; rfl⟩

theorem roundAway_int (n : Int) : roundAway n = n := by
  unfold roundAway
  split
  · rw [Int.floor_eq_iff]; constructor <;> linarith
  · have : ⌊-(n : Rat) + 1 / 2⌋ = -n := by rw [Int.floor_eq_iff]; push_cast; constructor <;> linarith
    rw [this]; omega

theorem roundAway_err (q : Rat) : |(roundAway q : Rat) - q| ≤ 1 / 2 := by
  unfold roundAway
  rw [abs_le]
  split
  · have h1 := Int.floor_le (q + 1 / 2)
    have h2 := Int.lt_floor_add_one (q + 1 / 2)
    constructor <;> linarith
  · have h1 := Int.floor_le (-q + 1 / 2)
    have h2 := Int.lt_floor_add_one (-q + 1 / 2)
    push_cast; constructor <;> linarith

theorem roundAway_mono {p q : Rat} (h : p ≤ q) : roundAway p ≤ roundAway q := by
  unfold roundAway
  split
  · next hp => rw [if_pos (hp.trans h)]; exact Int.floor_mono (by linarith)
  · next hp =>
    push Not at hp
    have h1 : 0 ≤ ⌊-p + 1 / 2⌋ := by rw [Int.le_floor]; push_cast; linarith
    split
    · next hq =>
      have : 0 ≤ ⌊q + 1 / 2⌋ := by rw [Int.le_floor]; push_cast; linarith
      omega
    · have := Int.floor_mono (show -q + 1 / 2 ≤ -p + 1 / 2 by linarith); omega

theorem roundAway_neg (q : Rat) : roundAway (-q) = - roundAway q := by
  rcases lt_trichotomy q 0 with h | h | h
  · unfold roundAway; rw [if_pos (by linarith), if_neg (by linarith)]; omega
  · subst h; rw [neg_zero]; decide +kernel
  · unfold roundAway; rw [if_neg (by linarith), if_pos (by linarith)]; simp

/-- Sanity checks against known binary32 values: `0.1f`, a tie, and the smallest denormal. -/
example : rnd (1 / 10) = 13421773 / 134217728 ∧ rnd 16777217 = 16777216 ∧ rnd 16777219 = 16777220 ∧
    rnd (-16777217) = -16777216 ∧ rnd (pow2 (-150)) = 0 ∧ rnd (3 * pow2 (-150)) = pow2 (-148) := by
  decide +kernel

end Spine.F32
