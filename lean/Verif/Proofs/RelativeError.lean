import Verif.Core.Arith
import Mathlib.Tactic.Linarith
import Mathlib.Tactic.Positivity
import Mathlib.Tactic.FieldSimp
import Mathlib.Tactic.Ring
/-!
# Products and quotients of floats up to a number of roundings

`Close k a x q`: the float `x` is the positive number `q` up to `k` roundings; `q` is between `2 ^ -a` and `2 ^ a`.
-/

namespace Spine
open F32

/-- The largest factor by which rounding decreases a number. -/
def shrink : Rat := 1 - 1 / 2 ^ 24

theorem shrink_pos : 0 < shrink := by norm_num [shrink]
theorem shrink_le_one : shrink ≤ 1 := by norm_num [shrink]

/-- A float close to a number. -/
structure Close (k a : Nat) (x : Fl) (q : Rat) : Prop where
  fin : x.fin = true
  ok : x.Ok
  low : 1 ≤ q * 2 ^ a
  high : q ≤ 2 ^ a
  rel : ∃ d, x.val = q * d ∧ shrink ^ k ≤ d ∧ d * shrink ^ k ≤ 1

theorem Close.pos {k a : Nat} {x : Fl} {q : Rat} (h : Close k a x q) : 0 < q := by
  have h1 := h.low
  by_contra hc
  have : q * 2 ^ a ≤ 0 := mul_nonpos_of_nonpos_of_nonneg (not_lt.mp hc) (by positivity)
  linarith

theorem shrink_half {k : Nat} (hk : k ≤ 30) : 1 / 2 ≤ shrink ^ k := by
  have h1 : shrink ^ 30 ≤ shrink ^ k := pow_le_pow_of_le_one shrink_pos.le shrink_le_one hk
  have h2 : (1 : Rat) / 2 ≤ shrink ^ 30 := by norm_num [shrink]
  exact h2.trans h1

/-- One more rounding. -/
theorem rounded {k a : Nat} {q d : Rat} (hk : k ≤ 30) (ha : a ≤ 120) (h1 : 1 ≤ q * 2 ^ a) (h2 : q ≤ 2 ^ a) (d1 : shrink ^ k ≤ d) (d2 : d * shrink ^ k ≤ 1) :
    |rnd (q * d)| < pow2 128 ∧ ∃ e, rnd (q * d) = q * e ∧ shrink ^ (k + 1) ≤ e ∧ e * shrink ^ (k + 1) ≤ 1 := by
  have hq : 0 < q := by
    by_contra hc
    have : q * 2 ^ a ≤ 0 := mul_nonpos_of_nonpos_of_nonneg (not_lt.mp hc) (by positivity)
    linarith
  have hs := shrink_half hk
  have hd : 1 / 2 ≤ d := hs.trans d1
  have hd' : d ≤ 2 := by nlinarith
  have hz : 0 < q * d := by positivity
  have p120 : (2 : Rat) ^ a ≤ 2 ^ 120 := pow_le_pow_right₀ (by norm_num) ha
  have hq1 : q ≤ 2 ^ 120 := h2.trans p120
  have hq2 : 1 / 2 ^ 120 ≤ q := by
    rw [div_le_iff₀ (by positivity)]
    exact h1.trans (mul_le_mul_of_nonneg_left p120 hq.le)
  have hlow : pow2 (-126) ≤ |q * d| := by
    rw [abs_of_pos hz, pow2_eq]
    have : (1 : Rat) / 2 ^ 120 * (1 / 2) ≤ q * d := mul_le_mul hq2 hd (by norm_num) hq.le
    refine le_trans ?_ this
    norm_num
  have he := rnd_err hlow
  rw [abs_of_pos hz] at he
  have hhigh : q * d ≤ 2 ^ 121 := by
    have : q * d ≤ 2 ^ 120 * 2 := mul_le_mul hq1 hd' (by linarith) (by positivity)
    refine this.trans (by norm_num)
  obtain ⟨e1, e2⟩ := abs_le.mp he
  refine ⟨?_, rnd (q * d) / q, ?_, ?_, ?_⟩
  · rw [abs_of_nonneg (rnd_nonneg hz.le), pow2_eq]
    have : rnd (q * d) ≤ 2 ^ 122 := by
      have : q * d / 2 ^ 24 ≤ 2 ^ 121 := by
        rw [div_le_iff₀ (by positivity)]; nlinarith
      norm_num at *
      linarith
    refine this.trans_lt (by norm_num)
  · field_simp
  · rw [le_div_iff₀ hq, pow_succ]
    have : q * (shrink ^ k) * shrink ≤ q * d * shrink := mul_le_mul_of_nonneg_right (mul_le_mul_of_nonneg_left d1 hq.le) shrink_pos.le
    have e : q * d * shrink = q * d - q * d / 2 ^ 24 := by unfold shrink; ring
    linarith
  · rw [div_mul_eq_mul_div, div_le_one hq, pow_succ]
    have e3 : rnd (q * d) ≤ q * d * (1 + 1 / 2 ^ 24) := by linarith
    have p := pow_pos shrink_pos k
    calc rnd (q * d) * (shrink ^ k * shrink) ≤ q * d * (1 + 1 / 2 ^ 24) * (shrink ^ k * shrink) := mul_le_mul_of_nonneg_right e3 (mul_pos p shrink_pos).le
      _ = q * (d * shrink ^ k) * ((1 + 1 / 2 ^ 24) * shrink) := by ring
      _ ≤ q * 1 * 1 := by
        refine mul_le_mul (mul_le_mul_of_nonneg_left d2 hq.le) (by norm_num [shrink]) ?_ (by linarith)
        norm_num [shrink]
      _ = q := by ring

theorem mul_range {a b : Nat} {q r : Rat} (h1 : 1 ≤ q * 2 ^ a) (h2 : q ≤ 2 ^ a) (h3 : 1 ≤ r * 2 ^ b) (h4 : r ≤ 2 ^ b) (hr : 0 < r) :
    1 ≤ q * r * 2 ^ (a + b) ∧ q * r ≤ 2 ^ (a + b) := by
  rw [pow_add]
  constructor
  · have : (1 : Rat) * 1 ≤ q * 2 ^ a * (r * 2 ^ b) := mul_le_mul h1 h3 (by norm_num) (by linarith)
    linarith
  · exact mul_le_mul h2 h4 hr.le (by positivity)

theorem Close.mul {k j a b : Nat} {x y : Fl} {q r : Rat} (hx : Close k a x q) (hy : Close j b y r) (hk : k + j ≤ 30) (ha : a + b ≤ 120) :
    Close (k + j + 1) (a + b) (Fl.mul x y) (q * r) := by
  obtain ⟨d, d1, d2, d3⟩ := hx.rel
  obtain ⟨e, e1, e2, e3⟩ := hy.rel
  obtain ⟨r1, r2⟩ := mul_range hx.low hx.high hy.low hy.high hy.pos
  have hd : 0 < d := (pow_pos shrink_pos k).trans_le d2
  have he : 0 < e := (pow_pos shrink_pos j).trans_le e2
  have hv : x.val * y.val = q * r * (d * e) := by rw [d1, e1]; ring
  obtain ⟨z1, z2⟩ := rounded hk ha r1 r2 (d := d * e) (by rw [pow_add]; exact mul_le_mul d2 e2 (pow_pos shrink_pos j).le hd.le)
    (by
      rw [pow_add]
      calc d * e * (shrink ^ k * shrink ^ j) = (d * shrink ^ k) * (e * shrink ^ j) := by ring
        _ ≤ 1 * 1 := mul_le_mul d3 e3 (mul_pos he (pow_pos shrink_pos j)).le (by norm_num)
        _ = 1 := by norm_num)
  rw [← hv] at z1 z2
  have v := Fl.mul_val hx.fin hy.fin hx.ok hy.ok z1
  exact ⟨v.1, Fl.mul_ok hx.ok hy.ok, r1, r2, by rw [v.2]; exact z2⟩

theorem Close.div {k j a b : Nat} {x y : Fl} {q r : Rat} (hx : Close k a x q) (hy : Close j b y r) (hk : k + j ≤ 30) (ha : a + b ≤ 120) :
    Close (k + j + 1) (a + b) (Fl.div x y) (q / r) := by
  obtain ⟨d, d1, d2, d3⟩ := hx.rel
  obtain ⟨e, e1, e2, e3⟩ := hy.rel
  have hr := hy.pos
  have hi1 : 1 ≤ r⁻¹ * 2 ^ b := by rw [inv_mul_eq_div, le_div_iff₀ hr, one_mul]; exact hy.high
  have hi2 : r⁻¹ ≤ 2 ^ b := by rw [inv_le_comm₀ hr (by positivity), ← one_div, div_le_iff₀ (by positivity)]; exact hy.low
  obtain ⟨r1, r2⟩ := mul_range hx.low hx.high hi1 hi2 (by positivity)
  rw [← div_eq_mul_inv] at r1 r2
  have hd : 0 < d := (pow_pos shrink_pos k).trans_le d2
  have he : 0 < e := (pow_pos shrink_pos j).trans_le e2
  have hv : x.val / y.val = q / r * (d / e) := by rw [d1, e1]; field_simp
  obtain ⟨z1, z2⟩ := rounded hk ha r1 r2 (d := d / e)
    (by
      rw [pow_add, le_div_iff₀ he]
      calc shrink ^ k * shrink ^ j * e = shrink ^ k * (e * shrink ^ j) := by ring
        _ ≤ shrink ^ k * 1 := mul_le_mul_of_nonneg_left e3 (pow_pos shrink_pos k).le
        _ ≤ d := by linarith)
    (by
      rw [pow_add, div_mul_eq_mul_div, div_le_one he]
      calc d * (shrink ^ k * shrink ^ j) = (d * shrink ^ k) * shrink ^ j := by ring
        _ ≤ 1 * shrink ^ j := mul_le_mul_of_nonneg_right d3 (pow_pos shrink_pos j).le
        _ ≤ e := by linarith)
  rw [← hv] at z1 z2
  have hy0 : y.val ≠ 0 := by rw [e1]; positivity
  have v := Fl.div_val hx.fin hy.fin hx.ok hy.ok hy0 z1
  exact ⟨v.1, Fl.div_ok hx.ok hy.ok, r1, r2, by rw [v.2]; exact z2⟩

/-- A difference of two floats. -/
theorem Close.sub {a : Nat} {x y : Fl} (hx : x.fin = true) (hy : y.fin = true) (h1 : 1 ≤ (x.val - y.val) * 2 ^ a) (h2 : x.val - y.val ≤ 2 ^ a) (ha : a ≤ 120) :
    Close 1 a (Fl.sub x y) (x.val - y.val) := by
  obtain ⟨z1, z2⟩ := rounded (k := 0) (d := 1) (by norm_num) ha h1 h2 (by norm_num) (by norm_num)
  rw [mul_one] at z1 z2
  have v := Fl.sub_val hx hy z1
  exact ⟨v.1, Fl.sub_ok _ _, h1, h2, by rw [v.2]; exact z2⟩

/-- A constant. -/
theorem Close.const {a : Nat} {q : Rat} (h1 : 1 ≤ q * 2 ^ a) (h2 : q ≤ 2 ^ a) (ha : a ≤ 120) : Close 1 a (Fl.ofRat q) q := by
  obtain ⟨z1, z2⟩ := rounded (k := 0) (d := 1) (by norm_num) ha h1 h2 (by norm_num) (by norm_num)
  rw [mul_one] at z1 z2
  have v := Fl.ofRat_val z1
  exact ⟨v.1, Fl.ofRat_ok _, h1, h2, by rw [v.2]; exact z2⟩

/-- A number that does not need rounding. -/
theorem Close.int {n : Int} {a : Nat} (h1 : 1 ≤ n) (h2 : n ≤ 2 ^ a) (ha : a ≤ 24) : Close 0 a (Fl.ofRat n) n := by
  have h24 : n ≤ 2 ^ 24 := h2.trans (pow_le_pow_right₀ (by norm_num) ha)
  have hr : rnd (n : Rat) = n := rnd_int (by rw [abs_of_nonneg (by omega)]; exact h24)
  have h1' : (1 : Rat) ≤ n := by exact_mod_cast h1
  have h2' : (n : Rat) ≤ 2 ^ a := by exact_mod_cast h2
  have h3' : (n : Rat) ≤ 2 ^ 24 := by exact_mod_cast h24
  have v := Fl.ofRat_val (q := n) (by rw [hr, abs_of_nonneg (by linarith), pow2_eq]; refine h3'.trans_lt (by norm_num))
  have hp : (1 : Rat) ≤ 2 ^ a := one_le_pow₀ (by norm_num)
  exact ⟨v.1, Fl.ofRat_ok _, by nlinarith, h2', 1, by rw [v.2, hr, mul_one], by norm_num, by norm_num⟩

/-- Fourteen roundings are less than a millionth. -/
theorem Close.millionth {k a : Nat} {x : Fl} {q : Rat} (h : Close k a x q) (hk : k ≤ 15) : |x.val - q| ≤ q / 2 ^ 20 := by
  obtain ⟨d, d1, d2, d3⟩ := h.rel
  have hq := h.pos
  have hs : shrink ^ 15 ≤ shrink ^ k := pow_le_pow_of_le_one shrink_pos.le shrink_le_one hk
  have h1 : (1 : Rat) - 1 / 2 ^ 20 ≤ shrink ^ 15 := by norm_num [shrink]
  have h2 : (1 : Rat) ≤ (1 + 1 / 2 ^ 20) * shrink ^ 15 := by norm_num [shrink]
  have p := pow_pos shrink_pos k
  have hd : 0 < d := p.trans_le d2
  have hd2 : d ≤ 1 + 1 / 2 ^ 20 := by
    by_contra hc
    have : (1 + 1 / 2 ^ 20) * shrink ^ k < d * shrink ^ k := mul_lt_mul_of_pos_right (not_le.mp hc) p
    have : (1 + 1 / 2 ^ 20 : Rat) * shrink ^ 15 ≤ (1 + 1 / 2 ^ 20) * shrink ^ k := mul_le_mul_of_nonneg_left hs (by norm_num)
    linarith
  have e : x.val - q = q * (d - 1) := by rw [d1]; ring
  rw [e, abs_mul, abs_of_pos hq, div_eq_mul_one_div]
  refine mul_le_mul_of_nonneg_left ?_ hq.le
  rw [abs_le]
  constructor <;> linarith

end Spine
