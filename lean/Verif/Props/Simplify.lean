import Verif.Model.Simplify
import Verif.Props.RealUnits
/-!
# C164: `simplify` in `float` and on targets with a 32-bit `unsigned long`
-/

namespace Spine
namespace Compound

open F32

theorem roundAway_le {q : Rat} (h : 0 ≤ q) : (roundAway q : Rat) ≤ q + 1 / 2 := by
  rw [roundAway, if_pos h]
  exact Int.floor_le _

theorem roundAway_pos {q : Rat} (h : 1 / 2 ≤ q) : 1 ≤ roundAway q := by
  rw [roundAway, if_pos (by linarith)]
  exact Int.le_floor.mpr (by push_cast; linarith)

theorem roundAway_nonneg {q : Rat} (h : 0 ≤ q) : 0 ≤ roundAway q := by
  rw [roundAway, if_pos h]
  exact Int.floor_nonneg.mpr (by linarith)

theorem rnd_rel {q : Rat} (h0 : 1 ≤ q) : |rnd q - q| ≤ q / 2 ^ 24 := by
  have := rnd_err (q := q) (by rw [abs_of_nonneg (by linarith)]; refine le_trans ?_ h0; rw [pow2_eq]; norm_num)
  rwa [abs_of_nonneg (by linarith : (0 : Rat) ≤ q)] at this

/-- The scaled number of one that is not below the precision. -/
theorem scaleFl_ok {ulong : Nat} {x factor : Fl} (hx : x.fin = true) (hxo : x.Ok) (hf : factor.fin = true) (hfo : factor.Ok) (h1 : 1 ≤ x.val * factor.val)
    (hb : x.val * factor.val * (1 + 1 / 2 ^ 24) + 1 / 2 < ulong) (hu : ulong ≤ 2 ^ 64) :
    ∃ n : Nat, scaleFl ulong x factor = .ok n ∧ 0 < n ∧ (n : Rat) ≤ 2 * (x.val * factor.val) := by
  set q := x.val * factor.val with hq
  have hr := abs_le.mp (rnd_rel h1)
  have hr1 : 1 ≤ rnd q := by
    have := rnd_mono h1
    have e := rnd_int (n := 1) (by norm_num)
    push_cast at e
    rwa [e] at this
  have hu' : (ulong : Rat) ≤ 2 ^ 64 := by exact_mod_cast hu
  have hlt : |rnd q| < pow2 128 := by
    rw [abs_of_nonneg (by linarith), pow2_eq]
    refine lt_of_le_of_lt (b := 2 ^ 64) ?_ (by norm_num)
    linarith
  obtain ⟨m1, m2⟩ := Fl.mul_val hx hf hxo hfo hlt
  have e : scaleFl ulong x factor = if 0 ≤ roundAway (rnd q) ∧ roundAway (rnd q) < ulong then .ok (roundAway (rnd q)).toNat else .error .ub := by
    have hmul : (Arith.mul x factor : Fl) = Fl.mul x factor := rfl
    rw [scaleFl, hmul]
    cases hm : Fl.mul x factor with
    | nan => rw [hm] at m1; cases m1
    | inf s => rw [hm] at m1; cases m1
    | num s m =>
      rw [hm] at m2
      have : (if s = true then -m else m) = rnd q := m2
      simp only [this]
  have p1 := roundAway_pos (q := rnd q) (by linarith)
  have p2 := roundAway_le (q := rnd q) (by linarith)
  have p3 : roundAway (rnd q) < ulong := by
    have : (roundAway (rnd q) : Rat) < ulong := by linarith
    exact_mod_cast this
  refine ⟨(roundAway (rnd q)).toNat, by rw [e, if_pos ⟨by omega, p3⟩], by omega, ?_⟩
  have : (((roundAway (rnd q)).toNat : Nat) : Rat) = (roundAway (rnd q) : Rat) := by
    exact_mod_cast Int.toNat_of_nonneg (by omega : 0 ≤ roundAway (rnd q))
  rw [this]
  linarith

theorem scaleFl_zero {ulong : Nat} {x factor : Fl} (hx : x.fin = true) (hxo : x.Ok) (hf : factor.fin = true) (hfo : factor.Ok) (h : x.val = 0) (hu : 0 < ulong) :
    scaleFl ulong x factor = .ok 0 := by
  have hz : x.val * factor.val = 0 := by rw [h, zero_mul]
  obtain ⟨m1, m2⟩ := Fl.mul_val hx hf hxo hfo (by rw [hz, Fl.rnd_zero, abs_zero]; exact pow2_pos _)
  rw [hz, Fl.rnd_zero] at m2
  have hmul : (Arith.mul x factor : Fl) = Fl.mul x factor := rfl
  rw [scaleFl, hmul]
  cases hm : Fl.mul x factor with
  | nan => rw [hm] at m1; cases m1
  | inf s => rw [hm] at m1; cases m1
  | num s m =>
    rw [hm] at m2
    have : (if s = true then -m else m) = 0 := m2
    simp only [this]
    rw [show roundAway 0 = 0 by decide +kernel, if_pos ⟨le_refl _, by exact_mod_cast hu⟩]
    rfl

/-- The divisor. -/
theorem divisor {g : Nat} (h : 0 < g) (hg : (g : Rat) ≤ 2 ^ 65) : ∃ r : Rat, (Fl.ofRat g).fin = true ∧ (Fl.ofRat g).val = r ∧ 1 ≤ r ∧ r ≤ 2 * g := by
  have h1 : (1 : Rat) ≤ g := by exact_mod_cast h
  have hr := abs_le.mp (rnd_rel h1)
  have hr1 : 1 ≤ rnd (g : Rat) := by
    have := rnd_mono h1
    have e := rnd_int (n := 1) (by norm_num)
    push_cast at e
    rwa [e] at this
  obtain ⟨a, c⟩ := Fl.ofRat_val (q := (g : Rat)) (by
    rw [abs_of_nonneg (by linarith), pow2_eq]
    refine lt_of_le_of_lt (b := 2 ^ 67) ?_ (by norm_num)
    linarith)
  exact ⟨_, a, c, hr1, by linarith⟩

theorem divide_val {x y : Fl} (hx : x.fin = true) (hxo : x.Ok) (hy : y.fin = true) (hyo : y.Ok) (h1 : 1 ≤ y.val) (h0 : 0 ≤ x.val) :
    ∃ z : Fl, RUnit.divide x y = .ok z ∧ z.fin = true ∧ z.val = rnd (x.val / y.val) := by
  have hy0 : feq y fzero = false := by
    have hz : (fzero : Fl).val = 0 ∧ (fzero : Fl).fin = true := by decide +kernel
    rw [Bool.eq_false_iff]
    intro hc
    unfold feq at hc
    rw [Bool.and_eq_true] at hc
    have := (Fl.le_iff hy hz.2).mp hc.1
    rw [hz.1] at this
    linarith
  have hle : x.val / y.val ≤ x.val := div_le_self h0 h1
  have hd : 0 ≤ x.val / y.val := div_nonneg h0 (by linarith)
  obtain ⟨a, c⟩ := Fl.div_val hx hy hxo hyo (by linarith) (by
    rw [abs_of_nonneg (rnd_nonneg hd)]
    have := rnd_mono hle
    rw [hxo.rnd_val] at this
    exact this.trans_lt (by have := hxo.val_lt; rwa [abs_of_nonneg h0] at this))
  exact ⟨_, by rw [RUnit.divide, hy0]; rfl, a, c⟩

/-- C164 (partial): in `float`, and whatever the width of `unsigned long`, `simplify` keeps a quantity up to one part in 2^22: for numerators of zero or not below the precision, denominators not below it, and neither so
large that the scaled number does not fit an `unsigned long`. Missing: others (`C90_negative_counterexample`, `C164_long_counterexample`). -/
theorem C164_float_partial {ulong : Nat} {factor : Fl} {a : Compound Fl} (hu : ulong ≤ 2 ^ 64) (hf : factor.fin = true) (hfo : factor.Ok) (hf1 : factor.val ≤ 2 ^ 64) (hf0 : 0 < factor.val)
    (hn : a.num.fin = true) (hno : a.num.Ok) (hd : a.den.fin = true) (hdo : a.den.Ok) (n1 : a.num.val = 0 ∨ 1 ≤ a.num.val * factor.val) (d1 : 1 ≤ a.den.val * factor.val)
    (bn : a.num.val * factor.val * (1 + 1 / 2 ^ 24) + 1 / 2 < ulong) (bd : a.den.val * factor.val * (1 + 1 / 2 ^ 24) + 1 / 2 < ulong) :
    ∃ c : Compound Fl, simplifyFl ulong factor a = .ok c ∧ c.num.fin = true ∧ c.den.fin = true ∧ 0 < c.den.val ∧
      |c.num.val / c.den.val - a.num.val / a.den.val| ≤ a.num.val / a.den.val / 2 ^ 22 := by
  obtain ⟨d, ed, dpos, dle⟩ := scaleFl_ok hd hdo hf hfo d1 bd hu
  have hu' : (ulong : Rat) ≤ 2 ^ 64 := by exact_mod_cast hu
  have upos : 0 < ulong := by
    have : (0 : Rat) < ulong := by linarith
    exact_mod_cast this
  have dv : 0 < a.den.val := by
    by_contra hc
    have := mul_nonpos_of_nonpos_of_nonneg (not_lt.mp hc) hf0.le
    linarith
  obtain ⟨n, en, nle⟩ : ∃ n : Nat, scaleFl ulong a.num factor = .ok n ∧ ((a.num.val = 0 ∧ n = 0) ∨ (1 ≤ a.num.val * factor.val ∧ 0 < n ∧ (n : Rat) ≤ 2 * (a.num.val * factor.val))) := by
    rcases n1 with h | h
    · exact ⟨0, scaleFl_zero hn hno hf hfo h upos, .inl ⟨h, rfl⟩⟩
    · obtain ⟨n, en, npos, nle⟩ := scaleFl_ok hn hno hf hfo h bn hu
      exact ⟨n, en, .inr ⟨h, npos, nle⟩⟩
  have nv : 0 ≤ a.num.val := by
    rcases n1 with h | h
    · exact h.ge
    · by_contra hc
      have := mul_nonpos_of_nonpos_of_nonneg (not_le.mp hc).le hf0.le
      linarith
  have gpos : 0 < Nat.gcd n d := Nat.gcd_pos_of_pos_right _ dpos
  have gd : ((Nat.gcd n d : Nat) : Rat) ≤ d := by exact_mod_cast Nat.gcd_le_right _ dpos
  obtain ⟨r, r1, r2, r3, r4⟩ := divisor gpos (by linarith)
  have ro := Fl.ofRat_ok ((Nat.gcd n d : Nat) : Rat)
  obtain ⟨x, x1, x2, x3⟩ := divide_val hn hno r1 ro (by rw [r2]; exact r3) nv
  obtain ⟨y, y1, y2, y3⟩ := divide_val hd hdo r1 ro (by rw [r2]; exact r3) dv.le
  rw [r2] at x3 y3
  have small : ∀ v : Rat, r ≤ 4 * (v * factor.val) → pow2 (-126) ≤ v / r := by
    intro v h
    have hp : pow2 (-126) ≤ 1 / 2 ^ 66 := by rw [pow2_eq]; norm_num
    refine hp.trans ?_
    rw [le_div_iff₀ (by linarith)]
    have hv : 0 ≤ v := by
      by_contra hc
      have := mul_nonpos_of_nonpos_of_nonneg (not_le.mp hc).le hf0.le
      linarith
    have : v * factor.val ≤ v * 2 ^ 64 := mul_le_mul_of_nonneg_left hf1 hv
    linarith
  have ey : |rnd (a.den.val / r) - a.den.val / r| ≤ a.den.val / r / 2 ^ 24 := by
    have h := rnd_err (q := a.den.val / r) (by rw [abs_of_nonneg (div_nonneg dv.le (by linarith))]; exact small _ (by linarith))
    rwa [abs_of_nonneg (div_nonneg dv.le (by linarith))] at h
  have ex : |rnd (a.num.val / r) - a.num.val / r| ≤ a.num.val / r / 2 ^ 24 := by
    rcases nle with ⟨h, -⟩ | ⟨h, npos, nle⟩
    · rw [h, zero_div, Fl.rnd_zero, sub_zero, abs_zero, zero_div]
    · have gn : ((Nat.gcd n d : Nat) : Rat) ≤ n := by exact_mod_cast Nat.gcd_le_left _ npos
      have h := rnd_err (q := a.num.val / r) (by rw [abs_of_nonneg (div_nonneg nv (by linarith))]; exact small _ (by linarith))
      rwa [abs_of_nonneg (div_nonneg nv (by linarith))] at h
  have hq0 : 0 < a.den.val / r := div_pos dv (by linarith)
  have hp0 : 0 ≤ a.num.val / r := div_nonneg nv (by linarith)
  have hquot : a.num.val / a.den.val = (a.num.val / r) / (a.den.val / r) := by
    have : r ≠ 0 := by linarith
    field_simp
  refine ⟨⟨x, y⟩, ?_, x2, y2, ?_, ?_⟩
  · simp only [simplifyFl, en, ed, res_bind_ok, x1, y1]
    rfl
  · show 0 < y.val
    rw [y3]
    have := abs_le.mp ey
    linarith
  · show |x.val / y.val - _| ≤ _
    rw [x3, y3, hquot]
    generalize a.num.val / r = p at *
    generalize a.den.val / r = q at *
    have ex' := abs_le.mp ex
    have ey' := abs_le.mp ey
    have hy : 0 < rnd q := by linarith
    rw [div_sub_div _ _ hy.ne' hq0.ne', abs_div, abs_of_pos (mul_pos hy hq0), div_le_iff₀ (mul_pos hy hq0)]
    have e : p / q / 2 ^ 22 * (rnd q * q) = p * rnd q / 2 ^ 22 := by field_simp
    rw [e]
    have b1 : q * (1 - 1 / 2 ^ 24) ≤ rnd q := by linarith
    have b2 : p * (q * (1 - 1 / 2 ^ 24)) ≤ p * rnd q := mul_le_mul_of_nonneg_left b1 hp0
    have b3 : |(rnd p - p) * q| ≤ p / 2 ^ 24 * q := by
      rw [abs_mul, abs_of_pos hq0]
      exact mul_le_mul_of_nonneg_right ex hq0.le
    have b4 : |p * (rnd q - q)| ≤ p * (q / 2 ^ 24) := by
      rw [abs_mul, abs_of_nonneg hp0]
      exact mul_le_mul_of_nonneg_left ey hp0
    have b3' := abs_le.mp b3
    have b4' := abs_le.mp b4
    have hpq : 0 ≤ p * q := mul_nonneg hp0 hq0.le
    rw [abs_le]
    constructor <;> nlinarith

/-- Non-vacuity: 150 over 7, with the default precision, on both kinds of target. -/
example : ∃ c : Compound Fl, simplifyFl (2 ^ 32) (Fl.ofRat 1000000) ⟨Fl.ofRat 150, Fl.ofRat 7⟩ = .ok c ∧ simplifyFl (2 ^ 64) (Fl.ofRat 1000000) ⟨Fl.ofRat 150, Fl.ofRat 7⟩ = .ok c ∧
    |c.num.val / c.den.val - 150 / 7| ≤ 150 / 7 / 2 ^ 22 := by
  obtain ⟨c, h⟩ : ∃ c, simplifyFl (2 ^ 32) (Fl.ofRat 1000000) ⟨Fl.ofRat 150, Fl.ofRat 7⟩ = .ok c :=
    ⟨⟨Fl.div (Fl.ofRat 150) (Fl.ofRat 1000000), Fl.div (Fl.ofRat 7) (Fl.ofRat 1000000)⟩, by decide +kernel⟩
  have h2 : simplifyFl (2 ^ 64) (Fl.ofRat 1000000) ⟨Fl.ofRat 150, Fl.ofRat 7⟩ = simplifyFl (2 ^ 32) (Fl.ofRat 1000000) ⟨Fl.ofRat 150, Fl.ofRat 7⟩ := by decide +kernel
  have v1 : (Fl.ofRat 150).val = 150 ∧ (Fl.ofRat 7).val = 7 ∧ (Fl.ofRat 1000000).val = 1000000 := by decide +kernel
  obtain ⟨c', e1, -, -, -, e2⟩ := C164_float_partial (ulong := 2 ^ 32) (factor := Fl.ofRat 1000000) (a := ⟨Fl.ofRat 150, Fl.ofRat 7⟩) (by norm_num) (by decide +kernel) (Fl.ofRat_ok _)
    (by rw [v1.2.2]; norm_num) (by rw [v1.2.2]; norm_num) (by decide +kernel) (Fl.ofRat_ok _) (by decide +kernel) (Fl.ofRat_ok _) (.inr (by rw [v1.2.2, v1.1]; norm_num))
    (by rw [v1.2.2, v1.2.1]; norm_num) (by rw [v1.2.2, v1.1]; norm_num) (by rw [v1.2.2, v1.2.1]; norm_num)
  rw [v1.1, v1.2.1] at e2
  rw [h] at e1
  cases e1
  exact ⟨c, h, h2.trans h, e2⟩

/-- C164 is false with an `unsigned long` of 32 bits: simplifying any quantity with a numerator of 4295 or more, with the default precision of six decimals, is undefined. -/
theorem C164_long_counterexample {a : Compound Fl} (hn : a.num.fin = true) (hno : a.num.Ok) (h : 4295 ≤ a.num.val) : simplifyFl (2 ^ 32) (Fl.ofRat 1000000) a = .error .ub := by
  have v : (Fl.ofRat 1000000).val = 1000000 ∧ (Fl.ofRat 1000000).fin = true := by decide +kernel
  have key : scaleFl (2 ^ 32) a.num (Fl.ofRat 1000000) = .error .ub := by
    have hmul : (Arith.mul a.num (Fl.ofRat 1000000) : Fl) = Fl.mul a.num (Fl.ofRat 1000000) := rfl
    rw [scaleFl, hmul]
    cases hm : Fl.mul a.num (Fl.ofRat 1000000) with
    | nan => rfl
    | inf s => rfl
    | num s m =>
      simp only
      have hpos : 0 ≤ a.num.val * (Fl.ofRat 1000000).val := by rw [v.1]; linarith
      have hge : rnd 4295000000 ≤ rnd (a.num.val * (Fl.ofRat 1000000).val) := rnd_mono (by rw [v.1]; linarith)
      have hval : (if s = true then -m else m) = rnd (a.num.val * (Fl.ofRat 1000000).val) := by
        by_cases hb : |rnd (a.num.val * (Fl.ofRat 1000000).val)| < pow2 128
        · have := (Fl.mul_val hn v.2 hno (Fl.ofRat_ok _) hb).2
          rw [hm] at this
          exact this
        · exfalso
          cases hx : a.num with
          | nan => rw [hx] at hn; cases hn
          | inf t => rw [hx] at hn; cases hn
          | num t q =>
            rw [hx] at hm hb hpos hno
            cases hy : Fl.ofRat 1000000 with
            | nan => rw [hy] at v; exact absurd v.2 (by decide)
            | inf t => rw [hy] at v; cases v.2
            | num t' q' =>
              have hq' : 0 ≤ q' := by have := Fl.ofRat_ok 1000000; rw [hy] at this; exact this.1
              rw [hy] at hm hb
              rw [← Fl.rnd_abs] at hb
              have e : |(Fl.num t q).val * (Fl.num t' q').val| = q * q' := by
                rw [abs_mul]
                have e1 : |(Fl.num t q).val| = q := by cases t <;> simp [Fl.val, abs_of_nonneg hno.1]
                have e2 : |(Fl.num t' q').val| = q' := by cases t' <;> simp [Fl.val, abs_of_nonneg hq']
                rw [e1, e2]
              rw [e] at hb
              simp only [Fl.mul, Fl.round, if_neg hb] at hm
              cases hm
      rw [hval, if_neg]
      have h1 := roundAway_mono hge
      have h2 : 2 ^ 32 ≤ roundAway (rnd 4295000000) := by decide +kernel
      push_cast
      omega
  rw [simplifyFl, key]
  rfl

/-- With 64 bits it is 18446744073709 or more. -/
example : simplifyFl (2 ^ 64) (Fl.ofRat 1000000) ⟨Fl.ofRat 4295, Fl.ofRat 1⟩ ≠ .error .ub ∧ simplifyFl (2 ^ 32) (Fl.ofRat 1000000) ⟨Fl.ofRat 4295, Fl.ofRat 1⟩ = .error .ub := by
  decide +kernel

/-- C164 (partial), integers: with an `unsigned long` of 32 bits, `simplify` keeps the quantity and reduces it to lowest terms, negative or not, if the greatest common divisor is below 2^32 and none
of the two is the smallest integer. -/
theorem C164_int_partial {n d : Int} (hd : d ≠ 0) (bn : n ≠ -2 ^ 63) (bd : d ≠ -2 ^ 63) (hg : Int.gcd n d < 2 ^ 32) :
    ∃ n' d', simplifyInt32 (n, d) = .ok (n', d') ∧ n * d' = n' * d ∧ Int.gcd n' d' = 1 ∧ (0 < d ↔ 0 < d') := by
  have hg0 : 0 < Int.gcd n d := Int.gcd_pos_of_ne_zero_right _ hd
  have hg1 : (0 : Int) < (Int.gcd n d : Nat) := by exact_mod_cast hg0
  have key : ∀ v : Int, ((Int.gcd n d : Nat) : Int) ∣ v → divideSigned v (Int.gcd n d % 2 ^ 32) = .ok (v / (Int.gcd n d : Nat)) := by
    intro v h
    rw [divideSigned, Nat.mod_eq_of_lt hg, if_neg hg0.ne', Int.tdiv_eq_ediv_of_dvd h]
  refine ⟨n / (Int.gcd n d : Nat), d / (Int.gcd n d : Nat), ?_, ?_, ?_, ?_⟩
  · rw [simplifyInt32, if_neg (by simp only; omega)]
    simp only [key n (Int.gcd_dvd_left ..), key d (Int.gcd_dvd_right ..), res_bind_ok]
    rfl
  · rw [← Int.mul_ediv_assoc _ (Int.gcd_dvd_right ..), mul_comm, Int.mul_ediv_assoc _ (Int.gcd_dvd_left ..), mul_comm]
  · exact Int.gcd_ediv_gcd_ediv_gcd hg0
  · constructor
    · intro h
      exact Int.ediv_pos_of_pos_of_dvd h (by omega) (Int.gcd_dvd_right ..)
    · intro h
      by_contra hc
      have : d / (Int.gcd n d : Nat) < 1 := Int.ediv_lt_of_lt_mul hg1 (by omega)
      omega

example : simplifyInt32 (-4, 2) = .ok (-2, 1) ∧ simplifyInt32 (6, -4) = .ok (3, -2) ∧ simplifyInt (-4, 2) = .ok (9223372036854775806, 1) := by decide +kernel

/-- C164 is false for larger greatest common divisors: they are cut to 32 bits. A quantity of one becomes a division by zero, and one third becomes less than that. -/
theorem C164_gcd_counterexample : simplifyInt32 (4294967296, 4294967296) = .error .exception ∧
    simplifyInt32 (4294967299, 12884901897) = .ok (1431655766, 4294967299) ∧ 4294967299 * 3 = 12884901897 ∧ 1431655766 * 3 ≠ 4294967299 ∧
    simplifyInt (4294967299, 12884901897) = .ok (1, 3) := by decide +kernel

end Compound
end Spine
