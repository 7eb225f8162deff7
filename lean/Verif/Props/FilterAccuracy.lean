import Verif.Props.Filter
import Verif.Props.EwmaLimit
import Verif.Props.RealArith
import Mathlib.Tactic.Positivity
/-!
# Property C135: the filters are accurate to single precision

C50, C51 and C82 say what `MappedRange`, `Invert` and `EWMA` compute in exact arithmetic, and show inputs for
which the code, which computes with `float`, gives something else. Here it is proved how far off the code can be.
-/

namespace Spine

open F32 Fl

namespace FilterAccuracy

/-- Subtraction of two floats has a relative error, however small the result. -/
theorem rnd_diff {x y : Rat} (hx : rnd x = x) (hy : rnd y = y) : |rnd (x - y) - (x - y)| ≤ |x - y| / 2 ^ 24 := by
  have := rnd_sum hx (y := -y) (by rw [rnd_neg, hy])
  rwa [← sub_eq_add_neg] at this

theorem pow2_150 : pow2 (-149) = 2 * pow2 (-150) := by rw [← pow2_succ]; norm_num

/-- A quotient of two rounded numbers. -/
theorem quotient_close {A B a b : Rat} (hA : 0 ≤ A) (hAB : A ≤ B) (hB : 0 < B) (hb : 0 < b) (ha : |a - A| ≤ A / 2 ^ 24)
    (hb' : |b - B| ≤ B / 2 ^ 24) : |a / b - A / B| ≤ 2001 / 1000 / 2 ^ 24 := by
  rw [abs_le] at ha hb' ⊢
  have hr : A / B * B = A := div_mul_cancel₀ _ hB.ne'
  have hq : a / b * b = a := div_mul_cancel₀ _ hb.ne'
  have hr0 : 0 ≤ A / B := div_nonneg hA hB.le
  have hr1 : A / B ≤ 1 := (div_le_one hB).mpr hAB
  set r := A / B
  set q := a / b
  have hbl : B * (1 - 1 / 2 ^ 24) ≤ b := by linarith
  have hbl' : B / 1001 * 1000 ≤ b := by nlinarith
  constructor
  · by_contra hc
    push Not at hc
    have h1 : (q - r) * b < -(2001 / 1000 / 2 ^ 24) * b := mul_lt_mul_of_pos_right hc hb
    have h2 : (q - r) * b = (a - A) - r * (b - B) := by rw [sub_mul, hq]; nlinarith
    have h3 : r * (b - B) ≤ r * (B / 2 ^ 24) := mul_le_mul_of_nonneg_left hb'.2 hr0
    have h4 : r * (B / 2 ^ 24) = A / 2 ^ 24 := by rw [← hr]; ring
    nlinarith
  · by_contra hc
    push Not at hc
    have h1 : 2001 / 1000 / 2 ^ 24 * b < (q - r) * b := mul_lt_mul_of_pos_right hc hb
    have h2 : (q - r) * b = (a - A) - r * (b - B) := by rw [sub_mul, hq]; nlinarith
    have h3 : r * -(B / 2 ^ 24) ≤ r * (b - B) := mul_le_mul_of_nonneg_left (by linarith) hr0
    have h4 : r * (B / 2 ^ 24) = A / 2 ^ 24 := by rw [← hr]; ring
    nlinarith

/-- What `MappedRange` computes, in numbers: `r` is the exact relative position in the input range. -/
theorem scale_close {x l h o p : Rat} (hx : rnd x = x) (hl : rnd l = l) (hh : rnd h = h) (ho : rnd o = o) (hp : rnd p = p)
    (hlh : l < h) (h1 : l ≤ x) (h2 : x ≤ h) (hpos : 0 < rnd (h - l)) :
    |rnd (o + rnd (rnd (rnd (x - l) / rnd (h - l)) * rnd (p - o))) - (o + (x - l) / (h - l) * (p - o))| ≤
      (6 * |p - o| + max |o| |p|) / 2 ^ 24 + pow2 (-149) := by
  have hη := pow2_pos (-150)
  have hη' : pow2 (-150) ≤ 1 / 2 ^ 24 / 1000 := by decide +kernel
  rw [pow2_150]
  have ea := rnd_diff hx hl
  have eb := rnd_diff hh hl
  have ew := rnd_diff hp ho
  rw [abs_of_nonneg (show 0 ≤ x - l by linarith)] at ea
  rw [abs_of_nonneg (show 0 ≤ h - l by linarith)] at eb
  have hq := quotient_close (A := x - l) (B := h - l) (by linarith) (by linarith) (by linarith) hpos ea eb
  have q0 : 0 ≤ rnd (x - l) / rnd (h - l) := div_nonneg (rnd_nonneg (by linarith)) hpos.le
  have q1 : rnd (x - l) / rnd (h - l) ≤ 1 := by rw [div_le_one hpos]; exact rnd_mono (by linarith)
  have ef := rnd_err_all (rnd (x - l) / rnd (h - l))
  rw [abs_of_nonneg q0] at ef
  have f0 := rnd_nonneg q0
  have f1 : rnd (rnd (x - l) / rnd (h - l)) ≤ 1 := by
    have := rnd_mono q1
    rwa [show rnd 1 = 1 by decide +kernel] at this
  have r0 : 0 ≤ (x - l) / (h - l) := div_nonneg (by linarith) (by linarith)
  have r1 : (x - l) / (h - l) ≤ 1 := by rw [div_le_one (by linarith)]; linarith
  set q := rnd (x - l) / rnd (h - l)
  set f := rnd q
  set r := (x - l) / (h - l)
  set w := rnd (p - o)
  set W := p - o with hW
  have efr : |f - r| ≤ 3003 / 1000 / 2 ^ 24 := by
    rw [abs_le] at ef hq ⊢
    constructor <;> linarith
  have em := rnd_err_all (f * w)
  set m := rnd (f * w) with hm
  have hW0 := abs_nonneg W
  have hw : |w| ≤ |W| * (1 + 1 / 2 ^ 24) := by
    have := abs_sub_abs_le_abs_sub w W
    linarith
  have hfw : |f * w| ≤ |W| * (1 + 1 / 2 ^ 24) := by
    rw [abs_mul, abs_of_nonneg f0]
    exact (mul_le_of_le_one_left (abs_nonneg _) f1).trans hw
  have e2 : |f * w - r * W| ≤ 4003 / 1000 / 2 ^ 24 * |W| := by
    have : f * w - r * W = f * (w - W) + (f - r) * W := by ring
    rw [this]
    refine (abs_add_le _ _).trans ?_
    rw [abs_mul, abs_mul, abs_of_nonneg f0]
    have a1 := mul_le_of_le_one_left (abs_nonneg (w - W)) f1
    have a2 := mul_le_mul_of_nonneg_right efr hW0
    linarith
  have e3 : |m - r * W| ≤ 5004 / 1000 / 2 ^ 24 * |W| + pow2 (-150) := by
    have := abs_sub_le m (f * w) (r * W)
    linarith
  have hmr : rnd m = m := rnd_rnd _
  have es := rnd_sum ho hmr
  have hM : |o + r * W| ≤ max |o| |p| := by
    have : o + r * W = (1 - r) * o + r * p := by rw [hW]; ring
    rw [this]
    refine (abs_add_le _ _).trans ?_
    rw [abs_mul, abs_mul, abs_of_nonneg r0, abs_of_nonneg (show 0 ≤ 1 - r by linarith)]
    have a1 := mul_le_mul_of_nonneg_left (le_max_left |o| |p|) (show 0 ≤ 1 - r by linarith)
    have a2 := mul_le_mul_of_nonneg_left (le_max_right |o| |p|) r0
    linarith
  have e4 : |o + m| ≤ max |o| |p| + 5004 / 1000 / 2 ^ 24 * |W| + pow2 (-150) := by
    have : o + m = (o + r * W) + (m - r * W) := by ring
    rw [this]
    have := abs_add_le (o + r * W) (m - r * W)
    linarith
  have e5 : |rnd (o + m) - (o + r * W)| ≤ |rnd (o + m) - (o + m)| + |m - r * W| := by
    have : rnd (o + m) - (o + r * W) = (rnd (o + m) - (o + m)) + (m - r * W) := by ring
    rw [this]
    exact abs_add_le _ _
  linarith

/-- What `MappedRange` computes in single precision, also for an output range the wrong way round. -/
theorem scale_val {c : MapCfg Fl} {x : Fl} (h : ∀ z ∈ [c.inLo, c.inHi, c.outLo, c.outHi], z.fin = true ∧ z.Ok ∧ |z.val| ≤ pow2 125) (hx : x.fin = true) (hlt : c.inLo.val < c.inHi.val)
    (h1 : c.inLo.val ≤ x.val) (h2 : x.val ≤ c.inHi.val) :
    (Fl.add c.outLo (Fl.mul (Fl.div (Fl.sub x c.inLo) (Fl.sub c.inHi c.inLo)) (Fl.sub c.outHi c.outLo))).fin = true ∧
    (Fl.add c.outLo (Fl.mul (Fl.div (Fl.sub x c.inLo) (Fl.sub c.inHi c.inLo)) (Fl.sub c.outHi c.outLo))).val =
      rnd (c.outLo.val + rnd (rnd (rnd (x.val - c.inLo.val) / rnd (c.inHi.val - c.inLo.val)) * rnd (c.outHi.val - c.outLo.val))) ∧
    0 < rnd (c.inHi.val - c.inLo.val) := by
  obtain ⟨a1, a2, a3⟩ := h c.inLo (by simp)
  obtain ⟨b1, b2, b3⟩ := h c.inHi (by simp)
  obtain ⟨c1, c2, c3⟩ := h c.outLo (by simp)
  obtain ⟨d1, d2, d3⟩ := h c.outHi (by simp)
  -- the part that does not depend on the output range
  obtain ⟨-, -, hpos⟩ := scale_ieee (c := { c with outHi := c.outLo }) (x := x)
    (by intro z hz; apply h; simp only [List.mem_cons, List.not_mem_nil, or_false] at hz ⊢; tauto) hx hlt (le_refl _) h1 h2
  change 0 < rnd (c.inHi.val - c.inLo.val) at hpos
  rw [abs_le] at a3 b3 c3 d3
  have e126 : pow2 126 = 2 * pow2 125 := by rw [← pow2_succ]; norm_num
  have e127 : pow2 127 = 2 * pow2 126 := by rw [← pow2_succ]; norm_num
  have r126 : rnd (pow2 126) = pow2 126 := by
    have := rnd_exact (m := 1) (e := 126) (by norm_num) (by norm_num)
    simpa using this
  have r127 : rnd (pow2 127) = pow2 127 := by
    have := rnd_exact (m := 1) (e := 127) (by norm_num) (by norm_num)
    simpa using this
  have p125 := pow2_pos 125
  have l128 : pow2 127 < pow2 128 := pow2_lt (by norm_num)
  have bound : ∀ q : Rat, |q| ≤ pow2 126 → |rnd q| ≤ pow2 126 := by
    intro q hq
    have := rnd_mono hq
    rwa [r126, Fl.rnd_abs] at this
  have n1 := bound (x.val - c.inLo.val) (by rw [abs_le]; constructor <;> linarith)
  have m1 := bound (c.inHi.val - c.inLo.val) (by rw [abs_le]; constructor <;> linarith)
  have w1 := bound (c.outHi.val - c.outLo.val) (by rw [abs_le]; constructor <;> linarith)
  have n0 : 0 ≤ rnd (x.val - c.inLo.val) := rnd_nonneg (by linarith)
  have u := sub_val hx a1 (by linarith)
  have v := sub_val b1 a1 (by linarith)
  have w := sub_val d1 c1 (by linarith)
  have q0 : 0 ≤ rnd (x.val - c.inLo.val) / rnd (c.inHi.val - c.inLo.val) := div_nonneg n0 hpos.le
  have q1 : rnd (x.val - c.inLo.val) / rnd (c.inHi.val - c.inLo.val) ≤ 1 := by
    rw [div_le_one hpos]
    exact rnd_mono (by linarith)
  have rq0 := rnd_nonneg q0
  have rq1 : rnd (rnd (x.val - c.inLo.val) / rnd (c.inHi.val - c.inLo.val)) ≤ 1 := by
    have := rnd_mono q1
    rwa [show rnd 1 = 1 by decide +kernel] at this
  have one_lt : (1 : Rat) < pow2 128 := by decide +kernel
  have d := div_val u.1 v.1 (sub_ok _ _) (sub_ok _ _) (by rw [v.2]; exact hpos.ne') (by rw [u.2, v.2, abs_of_nonneg rq0]; linarith)
  rw [u.2, v.2] at d
  have t1 := bound (rnd (rnd (x.val - c.inLo.val) / rnd (c.inHi.val - c.inLo.val)) * rnd (c.outHi.val - c.outLo.val)) (by
    rw [abs_mul, abs_of_nonneg rq0]
    exact (mul_le_of_le_one_left (abs_nonneg _) rq1).trans w1)
  have m := mul_val d.1 w.1 (div_ok (sub_ok _ _) (sub_ok _ _)) (sub_ok _ _) (by rw [d.2, w.2]; linarith)
  rw [d.2, w.2] at m
  have s : |rnd (c.outLo.val + rnd (rnd (rnd (x.val - c.inLo.val) / rnd (c.inHi.val - c.inLo.val)) * rnd (c.outHi.val - c.outLo.val)))| < pow2 128 := by
    refine lt_of_le_of_lt (b := pow2 127) ?_ l128
    rw [← Fl.rnd_abs, ← r127]
    apply rnd_mono
    have := abs_add_le c.outLo.val (rnd (rnd (rnd (x.val - c.inLo.val) / rnd (c.inHi.val - c.inLo.val)) * rnd (c.outHi.val - c.outLo.val)))
    have := abs_le.mpr c3
    linarith
  have z := add_val c1 m.1 (by rw [m.2]; exact s)
  rw [m.2] at z
  exact ⟨z.1, z.2, hpos⟩

end FilterAccuracy

open FilterAccuracy

/-- **C135**, `MappedRange`: for limits of at most 2^125 and any finite sample, the output differs from the exact linear
mapping (of the sample, or of the nearest limit if the sample is outside of the input range) by no more than a few
units in the last place of the output range. -/
theorem C135_mapped_range {c : MapCfg Fl} (h : ∀ z ∈ [c.inLo, c.inHi, c.outLo, c.outHi], z.fin = true ∧ z.Ok ∧ |z.val| ≤ pow2 125)
    (hlt : Fl.lt c.inLo c.inHi = true) (ht : c.throws = false) {x : Fl} (hx : x.fin = true) (hxo : x.Ok) :
    ∃ y, c.map x = .ok (some y) ∧ y.fin = true ∧
      |y.val - (c.outLo.val + (max c.inLo.val (min c.inHi.val x.val) - c.inLo.val) / (c.inHi.val - c.inLo.val) * (c.outHi.val - c.outLo.val))| ≤
        (6 * |c.outHi.val - c.outLo.val| + max |c.outLo.val| |c.outHi.val|) / 2 ^ 24 + pow2 (-149) := by
  have g1 := h c.inLo (by simp)
  have g2 := h c.inHi (by simp)
  have g3 := h c.outLo (by simp)
  have g4 := h c.outHi (by simp)
  rw [lt_iff g1.1 g2.1] at hlt
  obtain ⟨z, z1, z2, z3, z4⟩ := map_ieee g1.1 g2.1 hlt ht hx
  have r1 : c.inLo.val ≤ z.val := by rw [z2]; exact le_max_left _ _
  have r2 : z.val ≤ c.inHi.val := by rw [z2]; exact max_le hlt.le (min_le_left _ _)
  obtain ⟨s1, s2, s3⟩ := scale_val h z1 hlt r1 r2
  refine ⟨_, z4, s1, ?_⟩
  have zr : rnd z.val = z.val := by
    rcases z3 with rfl | rfl | rfl
    · exact hxo.rnd_val
    · exact g1.2.1.rnd_val
    · exact g2.2.1.rnd_val
  rw [s2, ← z2]
  exact scale_close zr g1.2.1.rnd_val g2.2.1.rnd_val g3.2.1.rnd_val g4.2.1.rnd_val hlt r1 r2 s3

/-- Percentages from a sensor between 0.1 and 0.9. -/
example : ∃ y, MapCfg.map { inLo := Fl.ofRat (1 / 10), inHi := Fl.ofRat (9 / 10), outLo := Fl.ofRat 0, outHi := Fl.ofRat 100, throws := false } (Fl.ofRat (3 / 10)) =
    .ok (some y) ∧ y.val = 6553601 / 262144 := ⟨.num false (6553601 / 262144), by decide +kernel, by decide +kernel⟩

/-- **C135**, `Invert`: for limits of at most 2^125 and a sample of the range, the output differs from `hi - (x - lo)` by no
more than a unit in the last place of the width plus one of the larger limit. -/
theorem C135_invert {b : Build} {lo hi x : Fl} (h : ∀ z ∈ [lo, hi, x], z.fin = true ∧ z.Ok ∧ |z.val| ≤ pow2 125)
    (h1 : Fl.le lo x = true) (h2 : Fl.le x hi = true) :
    ∃ y, invert b lo hi x = .ok y ∧ y.fin = true ∧
      |y.val - (hi.val - (x.val - lo.val))| ≤ (2 * (hi.val - lo.val) + max |lo.val| |hi.val|) / 2 ^ 24 := by
  obtain ⟨l1, l2, l3⟩ := h lo (by simp)
  obtain ⟨u1, u2, u3⟩ := h hi (by simp)
  obtain ⟨x1, x2, x3⟩ := h x (by simp)
  have e : invert b lo hi x = .ok (Fl.sub hi (Fl.sub x lo)) := by
    unfold invert
    change (spnAssert b (Fl.le lo x && Fl.le x hi) >>= fun _ => _) = _
    rw [h1, h2]; cases b <;> rfl
  rw [le_iff l1 x1] at h1
  rw [le_iff x1 u1] at h2
  have e126 : pow2 126 = 2 * pow2 125 := by rw [← pow2_succ]; norm_num
  have e127 : pow2 127 = 2 * pow2 126 := by rw [← pow2_succ]; norm_num
  have l128 : pow2 127 < pow2 128 := pow2_lt (by norm_num)
  have p125 := pow2_pos 125
  have ea := rnd_diff x2.rnd_val l2.rnd_val
  have hd : |x.val - lo.val| ≤ pow2 126 := by
    rw [abs_le] at *; constructor <;> linarith
  have hr : ∀ k : Int, -149 ≤ k → rnd (pow2 k) = pow2 k := by
    intro k hk
    have := rnd_exact (m := 1) (e := k) (by norm_num) hk
    simpa using this
  have bound : ∀ q : Rat, ∀ k : Int, -149 ≤ k → |q| ≤ pow2 k → |rnd q| ≤ pow2 k := by
    intro q k hk hq
    have := rnd_mono hq
    rwa [hr k hk, Fl.rnd_abs] at this
  have b1 := bound _ 126 (by norm_num) hd
  have v := sub_val x1 l1 (by linarith)
  have hd2 : |hi.val - rnd (x.val - lo.val)| ≤ pow2 127 := by
    have := abs_sub hi.val (rnd (x.val - lo.val))
    linarith
  have b2 := bound _ 127 (by norm_num) hd2
  have w := sub_val u1 v.1 (by rw [v.2]; linarith)
  rw [v.2] at w
  refine ⟨_, e, w.1, ?_⟩
  rw [w.2]
  have eb := rnd_diff u2.rnd_val (rnd_rnd (x.val - lo.val))
  set a := rnd (x.val - lo.val)
  have hA : |x.val - lo.val| = x.val - lo.val := abs_of_nonneg (by linarith)
  rw [hA] at ea
  have hM : |hi.val - (x.val - lo.val)| ≤ max |lo.val| |hi.val| := by
    have p1 := neg_abs_le lo.val
    have p2 := le_abs_self hi.val
    have p3 := le_max_left |lo.val| |hi.val|
    have p4 := le_max_right |lo.val| |hi.val|
    rw [abs_le]; constructor <;> linarith
  have e1 : |hi.val - a| ≤ max |lo.val| |hi.val| + |a - (x.val - lo.val)| := by
    have : hi.val - a = (hi.val - (x.val - lo.val)) - (a - (x.val - lo.val)) := by ring
    rw [this]
    have := abs_sub (hi.val - (x.val - lo.val)) (a - (x.val - lo.val))
    linarith
  have e2 : |rnd (hi.val - a) - (hi.val - (x.val - lo.val))| ≤ |rnd (hi.val - a) - (hi.val - a)| + |a - (x.val - lo.val)| := by
    have : rnd (hi.val - a) - (hi.val - (x.val - lo.val)) = (rnd (hi.val - a) - (hi.val - a)) - (a - (x.val - lo.val)) := by ring
    rw [this]
    exact abs_sub _ _
  linarith

example : invert .debug (Fl.ofRat (1 / 10)) (Fl.ofRat (9 / 10)) (Fl.ofRat (3 / 10)) = .ok (.num false (5872025 / 8388608)) := by decide +kernel

namespace FilterAccuracy

/-- The error of one step of the average. -/
theorem step_close {v x d B : Rat} (hv : rnd v = v) (hx : rnd x = x) (hd : 2 ≤ d) (hvB : |v| ≤ B) (hxB : |x| ≤ B) :
    |rnd (v + rnd (rnd (x - v) / d)) - (v + (x - v) / d)| ≤ 4 * B / 2 ^ 24 + pow2 (-149) := by
  have hη := pow2_pos (-150)
  rw [pow2_150]
  have hB : 0 ≤ B := (abs_nonneg _).trans hvB
  have es := rnd_diff hx hv
  have et := rnd_err_all (rnd (x - v) / d)
  have h2B : |x - v| ≤ 2 * B := by have := abs_sub x v; linarith
  set s := rnd (x - v)
  have hs : |s| ≤ 2 * B * (1 + 1 / 2 ^ 24) := by
    have := abs_sub_abs_le_abs_sub s (x - v)
    linarith
  have hsd : |s / d| ≤ B * (1 + 1 / 2 ^ 24) := by
    rw [abs_div, abs_of_nonneg (by linarith : 0 ≤ d), div_le_iff₀ (by linarith)]
    nlinarith
  have hxd : |s / d - (x - v) / d| ≤ B / 2 ^ 24 := by
    rw [← sub_div, abs_div, abs_of_nonneg (by linarith : 0 ≤ d), div_le_iff₀ (by linarith)]
    nlinarith
  have hgd : |v + (x - v) / d| ≤ B := by
    have : v + (x - v) / d = (1 - 1 / d) * v + 1 / d * x := by ring
    rw [this]
    have hd0 : 0 ≤ 1 / d := by positivity
    have hd1 : 0 ≤ 1 - 1 / d := by
      have : 1 / d ≤ 1 := by rw [div_le_one (by linarith)]; linarith
      linarith
    refine (abs_add_le _ _).trans ?_
    rw [abs_mul, abs_mul, abs_of_nonneg hd0, abs_of_nonneg hd1]
    have a1 := mul_le_mul_of_nonneg_left hvB hd1
    have a2 := mul_le_mul_of_nonneg_left hxB hd0
    linarith
  have hr := rnd_sum hv (rnd_rnd (s / d))
  set t := rnd (s / d)
  have ht : |t - (x - v) / d| ≤ 2001 / 1000 * B / 2 ^ 24 + pow2 (-150) := by
    have := abs_sub_le t (s / d) ((x - v) / d)
    linarith
  have hvt : |v + t| ≤ B + (2001 / 1000 * B / 2 ^ 24 + pow2 (-150)) := by
    have : v + t = (v + (x - v) / d) + (t - (x - v) / d) := by ring
    rw [this]
    have := abs_add_le (v + (x - v) / d) (t - (x - v) / d)
    linarith
  have e : |rnd (v + t) - (v + (x - v) / d)| ≤ |rnd (v + t) - (v + t)| + |t - (x - v) / d| := by
    have : rnd (v + t) - (v + (x - v) / d) = (rnd (v + t) - (v + t)) + (t - (x - v) / d) := by ring
    rw [this]
    exact abs_add_le _ _
  linarith

open Ewma

theorem mean_close {k : Fl} (hk : k.Ok) (hkf : k.fin = true) (hk1 : Fl.le k (Arith.ofRat 1) = false) {B : Rat} (xs : List Fl) :
    ∀ {m : Nat} {s : Ewma Fl} {T : Rat}, Seen m s → |s.value.val| ≤ B → (∀ x ∈ xs, Tame x ∧ |x.val| ≤ B) →
    ((m + 1 + xs.length : Nat) : Rat) ≤ k.val → m + 1 + xs.length ≤ 2 ^ 24 →
    |(m + 1) * s.value.val - T| ≤ (m + 1) * m * (4 * B / 2 ^ 24 + pow2 (-149)) →
    |(m + 1 + xs.length) * (s.samples k xs).value.val - (T + (xs.map Fl.val).sum)| ≤
      (m + 1 + xs.length) * (m + xs.length) * (4 * B / 2 ^ 24 + pow2 (-149)) := by
  induction xs with
  | nil => intro m s T _ _ _ _ _ h; simpa [samples] using h
  | cons x xs ih =>
    intro m s T hs hv hx hkm hm h
    obtain ⟨hxt, hxB⟩ := hx x List.mem_cons_self
    obtain ⟨hs', d, hd, hd1, hval⟩ := seen_step hk hk1 hs hxt
    have hn : (s.sample k x).n.val = (m : Rat) + 2 := by
      rw [hs'.2.1, Nat.min_eq_left (by simp at hm; omega)]
      push_cast; ring
    have hdv : d.val = (m : Rat) + 2 := by
      rw [hd]
      unfold fmin
      have : Fl.lt k (s.sample k x).n = false := by
        rw [Bool.eq_false_iff, ne_eq, lt_iff hkf hs'.1.1, hn]
        simp only [List.length_cons, Nat.cast_add, Nat.cast_one] at hkm
        have : (0 : Rat) ≤ xs.length := Nat.cast_nonneg _
        linarith
      change (if Fl.lt k (s.sample k x).n then k else (s.sample k x).n).val = _
      rw [this]
      exact hn
    have hm0 : (0 : Rat) ≤ m := Nat.cast_nonneg _
    have hstep := step_close (d := d.val) hs.2.2.2.1.rnd_val hxt.2.1.rnd_val (by rw [hdv]; linarith) hv hxB
    rw [← hval] at hstep
    have hbet := average_between (k := d.val) (lo := min s.value.val x.val) (hi := max s.value.val x.val) hs.2.2.2.1.rnd_val hxt.2.1.rnd_val hd1
      (min_le_left _ _) (le_max_left _ _) (min_le_right _ _) (le_max_right _ _)
    rw [← hval] at hbet
    have hv' : |(s.sample k x).value.val| ≤ B := by
      rw [abs_le] at hv hxB ⊢
      exact ⟨(le_min hv.1 hxB.1).trans hbet.1, hbet.2.trans (max_le hv.2 hxB.2)⟩
    have key := ih (m := m + 1) (T := T + x.val) hs' hv' (fun y hy => hx y (List.mem_cons_of_mem _ hy))
      (by simp only [List.length_cons] at hkm; convert hkm using 2; ring) (by simp only [List.length_cons] at hm; omega) (by
        push_cast
        have hB : 0 ≤ B := (abs_nonneg _).trans hv
        have he : 0 ≤ 4 * B / 2 ^ 24 + pow2 (-149) := by have := pow2_pos (-149); positivity
        set e := 4 * B / 2 ^ 24 + pow2 (-149)
        have hd0 : ((m : Rat) + 2) ≠ 0 := by linarith
        have hg : ((m : Rat) + 2) * (s.value.val + (x.val - s.value.val) / d.val) = (m + 1) * s.value.val + x.val := by
          rw [hdv]; field_simp; ring
        have : ((m : Rat) + 1 + 1) * (s.sample k x).value.val - (T + x.val) =
            ((m + 1) * s.value.val - T) + (m + 2) * ((s.sample k x).value.val - (s.value.val + (x.val - s.value.val) / d.val)) := by
          rw [mul_sub, hg]; ring
        rw [this]
        refine (abs_add_le _ _).trans ?_
        rw [abs_mul, abs_of_nonneg (by linarith : (0 : Rat) ≤ m + 2)]
        have a1 := mul_le_mul_of_nonneg_left hstep (by linarith : (0 : Rat) ≤ m + 2)
        nlinarith [mul_nonneg hm0 he])
    simp only [List.length_cons, List.map_cons, List.sum_cons, samples, List.foldl_cons] at key ⊢
    push_cast at key ⊢
    have c1 : (m : Rat) + 1 + (xs.length + 1) = m + 1 + 1 + xs.length := by ring
    have c2 : (m : Rat) + (xs.length + 1) = m + 1 + xs.length := by ring
    rw [c1, c2, show T + (x.val + (xs.map Fl.val).sum) = T + x.val + (xs.map Fl.val).sum by ring]
    exact key

end FilterAccuracy

/-- **C135**, `EWMA`: as long as no more samples have been taken than fit into the frame (of more than one sample), the
value is their mean up to a quarter of a millionth of the largest sample, for each sample but the first. -/
theorem C135_mean {k v0 : Fl} (s0 : Ewma Fl) (hk : k.Ok) (hkf : k.fin = true) (hk1 : Fl.le k (Arith.ofRat 1) = false) {B : Rat} (hB : B ≤ halfMax)
    {xs : List Fl} (hne : xs ≠ []) (hx : ∀ x ∈ xs, x.fin = true ∧ x.Ok ∧ |x.val| ≤ B) (hlen : (xs.length : Rat) ≤ k.val) (hmax : xs.length ≤ 2 ^ 24) :
    |((s0.reset v0).samples k xs).value.val - (xs.map Fl.val).sum / xs.length| ≤ (xs.length - 1) * (B / 2 ^ 22 + pow2 (-149)) := by
  obtain ⟨x, xs', rfl⟩ := List.exists_cons_of_ne_nil hne
  have hx0 := hx x List.mem_cons_self
  have ht : ∀ y ∈ x :: xs', Ewma.Tame y ∧ |y.val| ≤ B := fun y hy => ⟨⟨(hx y hy).1, (hx y hy).2.1, (hx y hy).2.2.trans hB⟩, (hx y hy).2.2⟩
  have e : (s0.reset v0).sample k x = ⟨.num false 1, x⟩ := by
    have h1 : (Arith.add fzero (Arith.ofRat 1) : Fl) = .num false 1 := by decide +kernel
    have h2 : feq (fzero : Fl) fzero = true := by decide +kernel
    simp only [Ewma.sample, Ewma.reset, h2, if_true, h1]
  have h0 := seen_first (k := k) (v0 := v0) s0 (ht x List.mem_cons_self).1
  have hval : ((s0.reset v0).sample k x).value.val = x.val := by rw [e]
  have key := mean_close hk hkf hk1 xs' (T := x.val) h0 (by rw [hval]; exact hx0.2.2) (fun y hy => ht y (List.mem_cons_of_mem _ hy))
    (by simp only [List.length_cons] at hlen; convert hlen using 2; ring) (by simp only [List.length_cons] at hmax; omega)
    (by rw [hval]; simp)
  change |((s0.reset v0).sample k x |>.samples k xs').value.val - _| ≤ _
  set r := (((s0.reset v0).sample k x).samples k xs').value.val
  simp only [List.map_cons, List.sum_cons, List.length_cons]
  push_cast at key ⊢
  have hN : (0 : Rat) < (xs'.length : Rat) + 1 := by positivity
  have hsub : r - (x.val + (xs'.map Fl.val).sum) / ((xs'.length : Rat) + 1) =
      ((0 + 1 + xs'.length) * r - (x.val + (xs'.map Fl.val).sum)) / (xs'.length + 1) := by field_simp; ring
  rw [hsub, abs_div, abs_of_pos hN, div_le_iff₀ hN]
  refine key.trans (le_of_eq ?_)
  ring

/-- The mean of 1/10, 1/5 and 3/10 in single precision. -/
example : ((Ewma.create.samples (Fl.ofRat 10) [Fl.ofRat (1 / 10), Fl.ofRat (1 / 5), Fl.ofRat (3 / 10)]).value : Fl) = .num false (13421773 / 67108864) := by decide +kernel

end Spine
