import Mathlib.Analysis.InnerProductSpace.PiL2
import Mathlib.Tactic.FieldSimp
import Mathlib.Tactic.Ring
import Mathlib.Tactic.LinearCombination
import Verif.Model.Point
import Verif.Core.Bind
/-!
# Properties C116, C117, C144: points
-/

namespace Spine

/-- Real coordinates: exact arithmetic. Division by 0 gives no number; there is no `%`. -/
noncomputable def Num.real : Num ℝ where
  zero := 0
  add := fun a b => .ok (a + b)
  sub := fun a b => .ok (a - b)
  mul := fun a b => .ok (a * b)
  div := fun a b => if b = 0 then .error .ub else .ok (a / b)
  mod := fun _ _ => .error .ub
  eq := fun a b => decide (a = b)
  hypot := fun l => .ok (Real.sqrt (l.map fun x => x ^ 2).sum)

/-! ## C116 -/

/-- **C116** in exact arithmetic: the normalized point of any point other than the origin has the length 1 and the same direction. Missing: the origin and integer
coordinates, where it is false, and rounding, see `C116_rounded_partial`. -/
theorem C116_xyz_partial {p : XYZ ℝ} (h : p.x ≠ 0 ∨ p.y ≠ 0 ∨ p.z ≠ 0) : ∃ q : XYZ ℝ, p.normalize Num.real = .ok q ∧ q.x ^ 2 + q.y ^ 2 + q.z ^ 2 = 1 ∧
    ∃ k > 0, p.x = k * q.x ∧ p.y = k * q.y ∧ p.z = k * q.z := by
  have hpos : 0 < p.x ^ 2 + (p.y ^ 2 + p.z ^ 2) := by
    rcases h with h | h | h <;> positivity
  obtain ⟨m, hm⟩ : ∃ m, m = Real.sqrt (p.x ^ 2 + (p.y ^ 2 + p.z ^ 2)) := ⟨_, rfl⟩
  have hmag : p.mag Num.real = .ok m := by simp [XYZ.mag, Num.real, hm]
  have hm0 : 0 < m := by rw [hm]; exact Real.sqrt_pos.mpr hpos
  have hsq : m ^ 2 = p.x ^ 2 + (p.y ^ 2 + p.z ^ 2) := by rw [hm]; exact Real.sq_sqrt hpos.le
  refine ⟨⟨p.x / m, p.y / m, p.z / m⟩, ?_, ?_, m, hm0, ?_, ?_, ?_⟩
  · have hd (a : ℝ) : Num.real.div a m = .ok (a / m) := if_neg hm0.ne'
    simp only [XYZ.normalize, hmag, hd, res_bind_ok, res_pure]
  · field_simp
    linear_combination -hsq
  all_goals field_simp

/-- **C116** in the plane. Missing: as above. -/
theorem C116_xy_partial {p : XY ℝ} (h : p.x ≠ 0 ∨ p.y ≠ 0) : ∃ q : XY ℝ, p.normalize Num.real = .ok q ∧ q.x ^ 2 + q.y ^ 2 = 1 ∧
    ∃ k > 0, p.x = k * q.x ∧ p.y = k * q.y := by
  have hpos : 0 < p.x ^ 2 + p.y ^ 2 := by
    rcases h with h | h <;> positivity
  obtain ⟨m, hm⟩ : ∃ m, m = Real.sqrt (p.x ^ 2 + p.y ^ 2) := ⟨_, rfl⟩
  have hmag : p.mag Num.real = .ok m := by simp [XY.mag, Num.real, hm]
  have hm0 : 0 < m := by rw [hm]; exact Real.sqrt_pos.mpr hpos
  have hsq : m ^ 2 = p.x ^ 2 + p.y ^ 2 := by rw [hm]; exact Real.sq_sqrt hpos.le
  refine ⟨⟨p.x / m, p.y / m⟩, ?_, ?_, m, hm0, ?_, ?_⟩
  · have hd (a : ℝ) : Num.real.div a m = .ok (a / m) := if_neg hm0.ne'
    simp only [XY.normalize, hmag, hd, res_bind_ok, res_pure]
  · field_simp
    linear_combination -hsq
  all_goals field_simp

example : ((⟨3, 4⟩ : XY ℝ).x ≠ 0 ∨ (⟨3, 4⟩ : XY ℝ).y ≠ 0) := by norm_num

/-- **C116** is false for integer coordinates: in the plane, a point whose coordinates are both smaller than its length becomes the origin; it is so for (3, 4). -/
theorem C116_int_counterexample {p : XY Int} {m : Int} (hm : p.mag Num.int = .ok m) (hx : p.x.natAbs < m.natAbs) (hy : p.y.natAbs < m.natAbs) :
    p.normalize Num.int = .ok ⟨0, 0⟩ ∧ (⟨3, 4⟩ : XY Int).normalize Num.int = .ok ⟨0, 0⟩ := by
  refine ⟨?_, by decide +kernel⟩
  have hne : m ≠ 0 := by intro h; rw [h] at hx; simp at hx
  have hd {a : Int} (h : a.natAbs < m.natAbs) : Num.int.div a m = .ok 0 := by
    have h0 : a.tdiv m = 0 := by
      rw [← Int.natAbs_eq_zero, Int.natAbs_tdiv]
      exact Nat.div_eq_of_lt h
    have : Num.int.div a m = int32 (a.tdiv m) := if_neg hne
    rw [this, h0]; rfl
  simp only [XY.normalize, hm, hd hx, hd hy, res_bind_ok, res_pure]

/-- **C116** is false for the origin, which gives no number, or undefined behaviour for integers. -/
theorem C116_origin_counterexample : (⟨0, 0, 0⟩ : XYZ ℝ).normalize Num.real = .error .ub ∧ (⟨0, 0⟩ : XY ℝ).normalize Num.real = .error .ub ∧
    (⟨0, 0, 0⟩ : XYZ Int).normalize Num.int = .error .ub ∧ (⟨0, 0⟩ : XY Int).normalize Num.int = .error .ub := by
  refine ⟨?_, ?_, by decide +kernel, by decide +kernel⟩
  · simp [XYZ.normalize, XYZ.mag, Num.real]
  · simp [XY.normalize, XY.mag, Num.real]

/-! ## The Euclidean space -/

/-- The point in the Euclidean space of Mathlib. -/
noncomputable def XYZ.vec (p : XYZ ℝ) : EuclideanSpace ℝ (Fin 3) := !₂[p.x, p.y, p.z]
/-- The point in the Euclidean plane of Mathlib. -/
noncomputable def XY.vec (p : XY ℝ) : EuclideanSpace ℝ (Fin 2) := !₂[p.x, p.y]

theorem XYZ.vec_inj {p q : XYZ ℝ} : p.vec = q.vec ↔ p = q := by
  constructor
  · intro h
    have h0 := congrFun (congrArg WithLp.ofLp h) 0
    have h1 := congrFun (congrArg WithLp.ofLp h) 1
    have h2 := congrFun (congrArg WithLp.ofLp h) 2
    simp [XYZ.vec] at h0 h1 h2
    cases p; cases q; simp_all
  · rintro rfl; rfl

theorem XY.vec_inj {p q : XY ℝ} : p.vec = q.vec ↔ p = q := by
  constructor
  · intro h
    have h0 := congrFun (congrArg WithLp.ofLp h) 0
    have h1 := congrFun (congrArg WithLp.ofLp h) 1
    simp [XY.vec] at h0 h1
    cases p; cases q; simp_all
  · rintro rfl; rfl

/-- Real coordinates with rounding: results are rounded by `r`, and the length of the coordinates `l` is calculated as `len l`, see `C116_rounded_partial`. -/
noncomputable def Num.rounded (r : ℝ → ℝ) (len : List ℝ → ℝ) : Num ℝ where
  zero := 0
  add := fun a b => .ok (r (a + b))
  sub := fun a b => .ok (r (a - b))
  mul := fun a b => .ok (r (a * b))
  div := fun a b => if b = 0 then .error .ub else .ok (r (a / b))
  mod := fun _ _ => .error .ub
  eq := fun a b => decide (a = b)
  hypot := fun l => .ok (len l)

theorem rounded_ratio {r : ℝ → ℝ} {u tiny big s m a : ℝ} (hu : 0 ≤ u) (hu' : u ≤ 1 / 8) (hb : 4 / 3 ≤ big) (hr : ∀ x, |x| ≤ big → |r x - x| ≤ u * |x| + tiny) (ht : tiny ≤ u * s) (ht' : tiny ≤ u) (hs : 0 < s) (h1 : |m - s| ≤ u * s + tiny)
    (ha : |a| ≤ s) : 0 < m ∧ |r (a / m) - a / s| ≤ 5 * u := by
  have h2 : |m - s| ≤ 2 * u * s := by linarith
  rw [abs_le] at h2
  have hm : 3 / 4 * s ≤ m := by nlinarith
  have hpos : 0 < m := by linarith
  refine ⟨hpos, ?_⟩
  have h3 : |a / m - a / s| ≤ 8 / 3 * u := by
    rw [div_sub_div _ _ hpos.ne' hs.ne', abs_div, div_le_iff₀ (by positivity), abs_of_pos (by positivity : 0 < m * s),
      show a * s - m * a = a * (s - m) by ring, abs_mul]
    have : |s - m| ≤ 2 * u * s := by rw [abs_le]; constructor <;> linarith
    calc |a| * |s - m| ≤ s * (2 * u * s) := mul_le_mul ha this (abs_nonneg _) hs.le
      _ = 8 / 3 * u * (3 / 4 * s * s) := by ring
      _ ≤ 8 / 3 * u * (m * s) := by
        refine mul_le_mul_of_nonneg_left (mul_le_mul_of_nonneg_right hm hs.le) (by positivity)
  have h4 : |a / s| ≤ 1 := by rw [abs_div, abs_of_pos hs, div_le_one hs]; exact ha
  have h5 : |a / m| ≤ 4 / 3 := by
    have := abs_sub_abs_le_abs_sub (a / m) (a / s)
    linarith
  have h6 := hr (a / m) (h5.trans hb)
  have h7 : u * |a / m| ≤ u * (4 / 3) := mul_le_mul_of_nonneg_left h5 hu
  calc |r (a / m) - a / s| = |(r (a / m) - a / m) + (a / m - a / s)| := by ring_nf
    _ ≤ |r (a / m) - a / m| + |a / m - a / s| := abs_add_le _ _
    _ ≤ 5 * u := by linarith

/-- **C116** with rounding: if no result is off by more than the part `u ≤ 1/8` of itself, except for tiny ones, and none overflows, then the normalized point is within `5u` of the exact one in every coordinate,
and its length within `9u` of 1. In single precision with the length calculated in double precision, `u` is hardly more than 2^-24. Missing: points whose length overflows, the origin, and integers. -/
theorem C116_rounded_partial {r : ℝ → ℝ} {len : List ℝ → ℝ} {u tiny big : ℝ} (hu : 0 ≤ u) (hu' : u ≤ 1 / 8) (hb : 4 / 3 ≤ big) (hr : ∀ x, |x| ≤ big → |r x - x| ≤ u * |x| + tiny)
    (hl : ∀ l, Real.sqrt (l.map (· ^ 2)).sum ≤ big → |len l - Real.sqrt (l.map (· ^ 2)).sum| ≤ u * Real.sqrt (l.map (· ^ 2)).sum + tiny) (ht' : tiny ≤ u) {p : XYZ ℝ} (hp : 0 < ‖p.vec‖) (hpb : ‖p.vec‖ ≤ big) (ht : tiny ≤ u * ‖p.vec‖) :
    ∃ q : XYZ ℝ, p.normalize (Num.rounded r len) = .ok q ∧ |q.x - p.x / ‖p.vec‖| ≤ 5 * u ∧ |q.y - p.y / ‖p.vec‖| ≤ 5 * u ∧ |q.z - p.z / ‖p.vec‖| ≤ 5 * u ∧ |‖q.vec‖ - 1| ≤ 9 * u := by
  have hn : ‖p.vec‖ = Real.sqrt (p.x ^ 2 + (p.y ^ 2 + p.z ^ 2)) := by
    simp [XYZ.vec, EuclideanSpace.norm_eq, Fin.sum_univ_three, add_assoc]
  have hlen : |len [p.x, p.y, p.z] - ‖p.vec‖| ≤ u * ‖p.vec‖ + tiny := by
    have e : Real.sqrt (([p.x, p.y, p.z].map (· ^ 2)).sum) = ‖p.vec‖ := by simp [hn]
    have := hl [p.x, p.y, p.z]
    rw [e] at this
    exact this hpb
  have hmag : p.mag (Num.rounded r len) = .ok (len [p.x, p.y, p.z]) := by rfl
  have hx : |p.x| ≤ ‖p.vec‖ := by rw [hn]; exact Real.abs_le_sqrt (by nlinarith [sq_nonneg p.y, sq_nonneg p.z])
  have hy : |p.y| ≤ ‖p.vec‖ := by rw [hn]; exact Real.abs_le_sqrt (by nlinarith [sq_nonneg p.x, sq_nonneg p.z])
  have hz : |p.z| ≤ ‖p.vec‖ := by rw [hn]; exact Real.abs_le_sqrt (by nlinarith [sq_nonneg p.x, sq_nonneg p.y])
  obtain ⟨h0, ex⟩ := rounded_ratio hu hu' hb hr ht ht' hp hlen hx
  obtain ⟨-, ey⟩ := rounded_ratio hu hu' hb hr ht ht' hp hlen hy
  obtain ⟨-, ez⟩ := rounded_ratio hu hu' hb hr ht ht' hp hlen hz
  refine ⟨⟨r (p.x / len [p.x, p.y, p.z]), r (p.y / len [p.x, p.y, p.z]), r (p.z / len [p.x, p.y, p.z])⟩, ?_, ex, ey, ez, ?_⟩
  · have hd (a : ℝ) : (Num.rounded r len).div a (len [p.x, p.y, p.z]) = .ok (r (a / len [p.x, p.y, p.z])) := if_neg h0.ne'
    simp only [XYZ.normalize, hmag, hd, res_bind_ok, res_pure]
  · have h1 : ‖(‖p.vec‖⁻¹ : ℝ) • p.vec‖ = 1 := by rw [norm_smul, norm_inv, norm_norm, inv_mul_cancel₀ hp.ne']
    rw [← h1]
    refine (abs_norm_sub_norm_le _ _).trans ?_
    rw [EuclideanSpace.norm_eq, Real.sqrt_le_iff]
    refine ⟨by positivity, ?_⟩
    simp only [Fin.sum_univ_three, Real.norm_eq_abs, sq_abs, PiLp.sub_apply, PiLp.smul_apply, XYZ.vec, smul_eq_mul]
    simp only [Matrix.cons_val_zero, Matrix.cons_val_one, Matrix.cons_val]
    have e (a b : ℝ) (h : |a - b / ‖p.vec‖| ≤ 5 * u) : (a - ‖p.vec‖⁻¹ * b) ^ 2 ≤ (5 * u) ^ 2 := by
      rw [inv_mul_eq_div]; exact sq_le_sq' (neg_le_of_abs_le h) (le_of_abs_le h)
    have a1 := e _ _ ex
    have a2 := e _ _ ey
    have a3 := e _ _ ez
    rw [← XYZ.vec]
    nlinarith [sq_nonneg u]

/-- **C116** with rounding, in the plane. Missing: as above. -/
theorem C116_rounded_xy_partial {r : ℝ → ℝ} {len : List ℝ → ℝ} {u tiny big : ℝ} (hu : 0 ≤ u) (hu' : u ≤ 1 / 8) (hb : 4 / 3 ≤ big) (hr : ∀ x, |x| ≤ big → |r x - x| ≤ u * |x| + tiny)
    (hl : ∀ l, Real.sqrt (l.map (· ^ 2)).sum ≤ big → |len l - Real.sqrt (l.map (· ^ 2)).sum| ≤ u * Real.sqrt (l.map (· ^ 2)).sum + tiny) (ht' : tiny ≤ u) {p : XY ℝ} (hp : 0 < ‖p.vec‖) (hpb : ‖p.vec‖ ≤ big) (ht : tiny ≤ u * ‖p.vec‖) :
    ∃ q : XY ℝ, p.normalize (Num.rounded r len) = .ok q ∧ |q.x - p.x / ‖p.vec‖| ≤ 5 * u ∧ |q.y - p.y / ‖p.vec‖| ≤ 5 * u ∧ |‖q.vec‖ - 1| ≤ 8 * u := by
  have hn : ‖p.vec‖ = Real.sqrt (p.x ^ 2 + p.y ^ 2) := by
    simp [XY.vec, EuclideanSpace.norm_eq, Fin.sum_univ_two]
  have hlen : |len [p.x, p.y] - ‖p.vec‖| ≤ u * ‖p.vec‖ + tiny := by
    have e : Real.sqrt (([p.x, p.y].map (· ^ 2)).sum) = ‖p.vec‖ := by simp [hn]
    have := hl [p.x, p.y]
    rw [e] at this
    exact this hpb
  have hmag : p.mag (Num.rounded r len) = .ok (len [p.x, p.y]) := by rfl
  have hx : |p.x| ≤ ‖p.vec‖ := by rw [hn]; exact Real.abs_le_sqrt (by nlinarith [sq_nonneg p.y])
  have hy : |p.y| ≤ ‖p.vec‖ := by rw [hn]; exact Real.abs_le_sqrt (by nlinarith [sq_nonneg p.x])
  obtain ⟨h0, ex⟩ := rounded_ratio hu hu' hb hr ht ht' hp hlen hx
  obtain ⟨-, ey⟩ := rounded_ratio hu hu' hb hr ht ht' hp hlen hy
  refine ⟨⟨r (p.x / len [p.x, p.y]), r (p.y / len [p.x, p.y])⟩, ?_, ex, ey, ?_⟩
  · have hd (a : ℝ) : (Num.rounded r len).div a (len [p.x, p.y]) = .ok (r (a / len [p.x, p.y])) := if_neg h0.ne'
    simp only [XY.normalize, hmag, hd, res_bind_ok, res_pure]
  · have h1 : ‖(‖p.vec‖⁻¹ : ℝ) • p.vec‖ = 1 := by rw [norm_smul, norm_inv, norm_norm, inv_mul_cancel₀ hp.ne']
    rw [← h1]
    refine (abs_norm_sub_norm_le _ _).trans ?_
    rw [EuclideanSpace.norm_eq, Real.sqrt_le_iff]
    refine ⟨by positivity, ?_⟩
    simp only [Fin.sum_univ_two, Real.norm_eq_abs, sq_abs, PiLp.sub_apply, PiLp.smul_apply, XY.vec, smul_eq_mul]
    simp only [Matrix.cons_val_zero, Matrix.cons_val_one]
    have e (a b : ℝ) (h : |a - b / ‖p.vec‖| ≤ 5 * u) : (a - ‖p.vec‖⁻¹ * b) ^ 2 ≤ (5 * u) ^ 2 := by
      rw [inv_mul_eq_div]; exact sq_le_sq' (neg_le_of_abs_le h) (le_of_abs_le h)
    have a1 := e _ _ ex
    have a2 := e _ _ ey
    rw [← XY.vec]
    nlinarith [sq_nonneg u]

/-- With every result, and every length, 1/16 too much. -/
example : ∃ q : XYZ ℝ, (⟨3, 4, 0⟩ : XYZ ℝ).normalize (Num.rounded (fun x => x + x / 16) fun l => Real.sqrt (l.map (· ^ 2)).sum * (17 / 16)) = .ok q ∧ |‖q.vec‖ - 1| ≤ 9 / 16 := by
  have hn : ‖(⟨3, 4, 0⟩ : XYZ ℝ).vec‖ = 5 := by
    simp [XYZ.vec, EuclideanSpace.norm_eq, Fin.sum_univ_three]
    rw [show (3 : ℝ) ^ 2 + 4 ^ 2 = 5 ^ 2 by norm_num]
    exact Real.sqrt_sq (by norm_num)
  obtain ⟨q, h, -, -, -, h'⟩ := C116_rounded_partial (r := fun x => x + x / 16) (len := fun l => Real.sqrt (l.map (· ^ 2)).sum * (17 / 16)) (u := 1 / 16) (tiny := 0) (big := 10)
    (by norm_num) (by norm_num) (by norm_num)
    (fun x _ => by rw [add_sub_cancel_left, abs_div]; norm_num; linarith [abs_nonneg x])
    (fun l _ => by
      have := Real.sqrt_nonneg (l.map (· ^ 2)).sum
      rw [show Real.sqrt (l.map (· ^ 2)).sum * (17 / 16) - Real.sqrt (l.map (· ^ 2)).sum = 1 / 16 * Real.sqrt (l.map (· ^ 2)).sum by ring, abs_of_nonneg (by positivity)]
      linarith)
    (by norm_num) (p := ⟨3, 4, 0⟩) (by rw [hn]; norm_num) (by rw [hn]; norm_num) (by rw [hn]; norm_num)
  exact ⟨q, h, h'.trans (by norm_num)⟩

/-! ## C117 -/

/-- **C117.** The components of what `dot` returns add up to the inner product. Missing: `dot` returns a point, not this sum. -/
theorem C117_sum_partial (p q : XYZ ℝ) (u v : XY ℝ) : (∃ r, p.dot Num.real q = .ok r ∧ r.x + r.y + r.z = inner ℝ p.vec q.vec) ∧
    ∃ r, u.dot Num.real v = .ok r ∧ r.x + r.y = inner ℝ u.vec v.vec := by
  refine ⟨⟨_, rfl, ?_⟩, _, rfl, ?_⟩
  · simp [XYZ.vec, PiLp.inner_apply, Fin.sum_univ_three]; ring
  · simp [XY.vec, PiLp.inner_apply, Fin.sum_univ_two]; ring

/-- **C117** is false: `dot` of the perpendicular points (1, 1) and (1, -1) is the point (1, -1), that is `operator*`. -/
theorem C117_dot_counterexample : (⟨1, 1⟩ : XY Int).dot Num.int ⟨1, -1⟩ = .ok ⟨1, -1⟩ ∧ (1 : Int) * 1 + 1 * -1 = 0 := by decide +kernel

/-! ## C144 -/

/-- **C144** in exact arithmetic: the operations on points in space are those of the Euclidean space. Missing: rounding (`C144_rounded_partial`), and integers, where the length is cut off
(`C144_triangle_counterexample`) and overflow is undefined (`C144_overflow`). -/
theorem C144_xyz_partial (p q : XYZ ℝ) (k : ℝ) :
    (XYZ.origin Num.real).vec = 0 ∧
    (∃ r, p.add Num.real q = .ok r ∧ r.vec = p.vec + q.vec) ∧ (∃ r, p.sub Num.real q = .ok r ∧ r.vec = p.vec - q.vec) ∧
    (∃ r, p.scale Num.real k = .ok r ∧ r.vec = k • p.vec) ∧ p.mag Num.real = .ok ‖p.vec‖ ∧
    (p.eq Num.real q = true ↔ p.vec = q.vec) ∧ (p.ne Num.real q = true ↔ p.vec ≠ q.vec) := by
  have he : p.eq Num.real q = true ↔ p.vec = q.vec := by
    rw [XYZ.vec_inj]; cases p; cases q; simp [XYZ.eq, Num.real, and_assoc]
  refine ⟨?_, ⟨_, rfl, ?_⟩, ⟨_, rfl, ?_⟩, ⟨_, rfl, ?_⟩, ?_, he, ?_⟩
  · ext i; fin_cases i <;> rfl
  · ext i; fin_cases i <;> rfl
  · ext i; fin_cases i <;> rfl
  · ext i; fin_cases i <;> simp [XYZ.vec, mul_comm]
  · simp [XYZ.mag, Num.real, XYZ.vec, EuclideanSpace.norm_eq, Fin.sum_univ_three, add_assoc]
  · rw [← not_iff_not, not_not, ← he]; simp [XYZ.ne, XYZ.eq, and_assoc]

/-- **C144** in the plane. Missing: as above. -/
theorem C144_xy_partial (p q : XY ℝ) (k : ℝ) :
    (XY.origin Num.real).vec = 0 ∧
    (∃ r, p.add Num.real q = .ok r ∧ r.vec = p.vec + q.vec) ∧ (∃ r, p.sub Num.real q = .ok r ∧ r.vec = p.vec - q.vec) ∧
    (∃ r, p.scale Num.real k = .ok r ∧ r.vec = k • p.vec) ∧ p.mag Num.real = .ok ‖p.vec‖ ∧
    (p.eq Num.real q = true ↔ p.vec = q.vec) ∧ (p.ne Num.real q = true ↔ p.vec ≠ q.vec) := by
  have he : p.eq Num.real q = true ↔ p.vec = q.vec := by
    rw [XY.vec_inj]; cases p; cases q; simp [XY.eq, Num.real]
  refine ⟨?_, ⟨_, rfl, ?_⟩, ⟨_, rfl, ?_⟩, ⟨_, rfl, ?_⟩, ?_, he, ?_⟩
  · ext i; fin_cases i <;> rfl
  · ext i; fin_cases i <;> rfl
  · ext i; fin_cases i <;> rfl
  · ext i; fin_cases i <;> simp [XY.vec, mul_comm]
  · simp [XY.mag, Num.real, XY.vec, EuclideanSpace.norm_eq, Fin.sum_univ_two]
  · rw [← not_iff_not, not_not, ← he]; simp [XY.ne, XY.eq]

/-- So the distance between points, the length of their difference, obeys the inequality of the triangle. -/
theorem C144_distance_partial {p q r d₁ d₂ d₃ : XYZ ℝ} {a b c : ℝ} (h₁ : p.sub Num.real q = .ok d₁) (h₂ : q.sub Num.real r = .ok d₂)
    (h₃ : p.sub Num.real r = .ok d₃) (ha : d₁.mag Num.real = .ok a) (hb : d₂.mag Num.real = .ok b) (hc : d₃.mag Num.real = .ok c) :
    c ≤ a + b ∧ (a = 0 ↔ p = q) := by
  have key : ∀ {p q d : XYZ ℝ} {a : ℝ}, p.sub Num.real q = .ok d → d.mag Num.real = .ok a → a = dist p.vec q.vec := by
    intro p q d a h ha
    obtain ⟨d', h', hd⟩ := (C144_xyz_partial p q 0).2.2.1
    rw [h] at h'; cases h'
    have := (C144_xyz_partial d d 0).2.2.2.2.1
    rw [ha] at this; cases this
    rw [hd, dist_eq_norm]
  rw [key h₁ ha, key h₂ hb, key h₃ hc]
  exact ⟨dist_triangle _ _ _, by rw [dist_eq_zero, XYZ.vec_inj]⟩

theorem close_vec {n : Nat} (hn : n ≤ 4) {v w : EuclideanSpace ℝ (Fin n)} {u t : ℝ} (hu : 0 ≤ u) (ht : 0 ≤ t) (h : ∀ i, |v i - w i| ≤ u * |w i| + t) :
    ‖v - w‖ ≤ u * ‖w‖ + 2 * t := by
  let a : EuclideanSpace ℝ (Fin n) := WithLp.toLp 2 fun i => u * |w i|
  let c : EuclideanSpace ℝ (Fin n) := WithLp.toLp 2 fun _ => t
  have ha : ‖a‖ = u * ‖w‖ := by
    rw [EuclideanSpace.norm_eq, EuclideanSpace.norm_eq]
    have : ∀ i, ‖a i‖ ^ 2 = u ^ 2 * ‖w i‖ ^ 2 := by
      intro i
      change ‖u * |w i|‖ ^ 2 = _
      rw [norm_mul, mul_pow, Real.norm_eq_abs, Real.norm_eq_abs, abs_abs, sq_abs, Real.norm_eq_abs]
    simp only [this, ← Finset.mul_sum]
    rw [Real.sqrt_mul (sq_nonneg u), Real.sqrt_sq hu]
  have hc : ‖c‖ ≤ 2 * t := by
    rw [EuclideanSpace.norm_eq]
    have : ∀ i, ‖c i‖ ^ 2 = t ^ 2 := by
      intro i
      change ‖t‖ ^ 2 = _
      rw [Real.norm_eq_abs, sq_abs]
    simp only [this, Finset.sum_const, Finset.card_univ, Fintype.card_fin, nsmul_eq_mul]
    rw [Real.sqrt_le_left (by linarith)]
    have : (n : ℝ) ≤ 4 := by exact_mod_cast hn
    nlinarith [sq_nonneg t]
  calc ‖v - w‖ ≤ ‖a + c‖ := by
        rw [EuclideanSpace.norm_eq, EuclideanSpace.norm_eq]
        apply Real.sqrt_le_sqrt
        apply Finset.sum_le_sum
        intro i _
        have h1 : ‖(v - w) i‖ = |v i - w i| := rfl
        have h2 : ‖(a + c) i‖ = u * |w i| + t := by
          change |u * |w i| + t| = _
          exact abs_of_nonneg (by positivity)
        rw [h1, h2]
        exact pow_le_pow_left₀ (abs_nonneg _) (h i) 2
    _ ≤ ‖a‖ + ‖c‖ := norm_add_le a c
    _ ≤ u * ‖w‖ + 2 * t := by rw [ha]; linarith

/-- **C144** with rounding: if no result is off by more than the part `u ≤ 1/8` of itself, except for tiny ones, and none overflows, then sums, differences and multiples are off by the part `u` of
their length, and distances by the part `3u`. Missing: points that overflow, and integers. -/
theorem C144_rounded_partial {r : ℝ → ℝ} {len : List ℝ → ℝ} {u tiny big : ℝ} (hu : 0 ≤ u) (hu' : u ≤ 1 / 8) (ht : 0 ≤ tiny) (hr : ∀ x, |x| ≤ big → |r x - x| ≤ u * |x| + tiny)
    (hl : ∀ l, Real.sqrt (l.map (· ^ 2)).sum ≤ big → |len l - Real.sqrt (l.map (· ^ 2)).sum| ≤ u * Real.sqrt (l.map (· ^ 2)).sum + tiny) (p q : XYZ ℝ) (k : ℝ) :
    (‖p.vec + q.vec‖ ≤ big → ∃ s, p.add (Num.rounded r len) q = .ok s ∧ ‖s.vec - (p.vec + q.vec)‖ ≤ u * ‖p.vec + q.vec‖ + 2 * tiny) ∧
    (‖k • p.vec‖ ≤ big → ∃ s, p.scale (Num.rounded r len) k = .ok s ∧ ‖s.vec - k • p.vec‖ ≤ u * ‖k • p.vec‖ + 2 * tiny) ∧
    (2 * dist p.vec q.vec + 2 * tiny ≤ big → ∃ s d, p.sub (Num.rounded r len) q = .ok s ∧ s.mag (Num.rounded r len) = .ok d ∧
      |d - dist p.vec q.vec| ≤ 3 * u * dist p.vec q.vec + 4 * tiny) := by
  have hi : ∀ (v : EuclideanSpace ℝ (Fin 3)) i, ‖v‖ ≤ big → |r (v i) - v i| ≤ u * |v i| + tiny := by
    intro v i h
    exact hr _ ((PiLp.norm_apply_le v i).trans h)
  have hlen : ∀ s : XYZ ℝ, Real.sqrt (([s.x, s.y, s.z].map (· ^ 2)).sum) = ‖s.vec‖ := by
    intro s
    simp [XYZ.vec, EuclideanSpace.norm_eq, Fin.sum_univ_three, add_assoc]
  refine ⟨fun h => ⟨_, rfl, close_vec (by norm_num) hu ht ?_⟩, fun h => ⟨_, rfl, close_vec (by norm_num) hu ht ?_⟩, fun h => ?_⟩
  · intro i
    have := hi _ i h
    fin_cases i <;> simpa [XYZ.vec, Num.rounded] using this
  · intro i
    have := hi _ i h
    fin_cases i <;> simpa [XYZ.vec, Num.rounded, mul_comm k] using this
  · rw [dist_eq_norm] at *
    have hn0 := norm_nonneg (p.vec - q.vec)
    obtain ⟨s, hs⟩ : ∃ s : XYZ ℝ, s = ⟨r (p.x - q.x), r (p.y - q.y), r (p.z - q.z)⟩ := ⟨_, rfl⟩
    have hc : ‖s.vec - (p.vec - q.vec)‖ ≤ u * ‖p.vec - q.vec‖ + 2 * tiny := by
      refine close_vec (by norm_num) hu ht fun i => ?_
      have := hi (p.vec - q.vec) i (by linarith)
      fin_cases i <;> simpa [XYZ.vec, hs] using this
    generalize hv : p.vec - q.vec = v at *
    have h1 := abs_le.mp ((abs_norm_sub_norm_le s.vec v).trans hc)
    have hun : u * ‖v‖ ≤ 1 / 8 * ‖v‖ := mul_le_mul_of_nonneg_right hu' hn0
    have h2 := hl [s.x, s.y, s.z] (by rw [hlen]; linarith)
    rw [hlen] at h2
    refine ⟨s, len [s.x, s.y, s.z], by rw [hs]; rfl, rfl, ?_⟩
    have h3 : u * ‖s.vec‖ ≤ u * (‖v‖ + (u * ‖v‖ + 2 * tiny)) := mul_le_mul_of_nonneg_left (by linarith) hu
    have h4 : u * (u * ‖v‖ + 2 * tiny) ≤ 1 / 8 * (u * ‖v‖ + 2 * tiny) := mul_le_mul_of_nonneg_right hu' (by positivity)
    rw [abs_le] at h2 ⊢
    have h5 : 0 ≤ u * ‖v‖ := by positivity
    constructor <;> linarith

/-- **C144** with rounding, in the plane. Missing: as above. -/
theorem C144_rounded_xy_partial {r : ℝ → ℝ} {len : List ℝ → ℝ} {u tiny big : ℝ} (hu : 0 ≤ u) (hu' : u ≤ 1 / 8) (ht : 0 ≤ tiny) (hr : ∀ x, |x| ≤ big → |r x - x| ≤ u * |x| + tiny)
    (hl : ∀ l, Real.sqrt (l.map (· ^ 2)).sum ≤ big → |len l - Real.sqrt (l.map (· ^ 2)).sum| ≤ u * Real.sqrt (l.map (· ^ 2)).sum + tiny) (p q : XY ℝ) (k : ℝ) :
    (‖p.vec + q.vec‖ ≤ big → ∃ s, p.add (Num.rounded r len) q = .ok s ∧ ‖s.vec - (p.vec + q.vec)‖ ≤ u * ‖p.vec + q.vec‖ + 2 * tiny) ∧
    (‖k • p.vec‖ ≤ big → ∃ s, p.scale (Num.rounded r len) k = .ok s ∧ ‖s.vec - k • p.vec‖ ≤ u * ‖k • p.vec‖ + 2 * tiny) ∧
    (2 * dist p.vec q.vec + 2 * tiny ≤ big → ∃ s d, p.sub (Num.rounded r len) q = .ok s ∧ s.mag (Num.rounded r len) = .ok d ∧
      |d - dist p.vec q.vec| ≤ 3 * u * dist p.vec q.vec + 4 * tiny) := by
  have hi : ∀ (v : EuclideanSpace ℝ (Fin 2)) i, ‖v‖ ≤ big → |r (v i) - v i| ≤ u * |v i| + tiny := by
    intro v i h
    exact hr _ ((PiLp.norm_apply_le v i).trans h)
  have hlen : ∀ s : XY ℝ, Real.sqrt (([s.x, s.y].map (· ^ 2)).sum) = ‖s.vec‖ := by
    intro s
    simp [XY.vec, EuclideanSpace.norm_eq, Fin.sum_univ_two]
  refine ⟨fun h => ⟨_, rfl, close_vec (by norm_num) hu ht ?_⟩, fun h => ⟨_, rfl, close_vec (by norm_num) hu ht ?_⟩, fun h => ?_⟩
  · intro i
    have := hi _ i h
    fin_cases i <;> simpa [XY.vec, Num.rounded] using this
  · intro i
    have := hi _ i h
    fin_cases i <;> simpa [XY.vec, Num.rounded, mul_comm k] using this
  · rw [dist_eq_norm] at *
    have hn0 := norm_nonneg (p.vec - q.vec)
    obtain ⟨s, hs⟩ : ∃ s : XY ℝ, s = ⟨r (p.x - q.x), r (p.y - q.y)⟩ := ⟨_, rfl⟩
    have hc : ‖s.vec - (p.vec - q.vec)‖ ≤ u * ‖p.vec - q.vec‖ + 2 * tiny := by
      refine close_vec (by norm_num) hu ht fun i => ?_
      have := hi (p.vec - q.vec) i (by linarith)
      fin_cases i <;> simpa [XY.vec, hs] using this
    generalize hv : p.vec - q.vec = v at *
    have h1 := abs_le.mp ((abs_norm_sub_norm_le s.vec v).trans hc)
    have hun : u * ‖v‖ ≤ 1 / 8 * ‖v‖ := mul_le_mul_of_nonneg_right hu' hn0
    have h2 := hl [s.x, s.y] (by rw [hlen]; linarith)
    rw [hlen] at h2
    refine ⟨s, len [s.x, s.y], by rw [hs]; rfl, rfl, ?_⟩
    have h3 : u * ‖s.vec‖ ≤ u * (‖v‖ + (u * ‖v‖ + 2 * tiny)) := mul_le_mul_of_nonneg_left (by linarith) hu
    have h4 : u * (u * ‖v‖ + 2 * tiny) ≤ 1 / 8 * (u * ‖v‖ + 2 * tiny) := mul_le_mul_of_nonneg_right hu' (by positivity)
    rw [abs_le] at h2 ⊢
    have h5 : 0 ≤ u * ‖v‖ := by positivity
    constructor <;> linarith

/-- With every result, and every length, 1/16 too much: the distance 5 comes out as less than 6. -/
example : ∃ s d, (⟨3, 4, 1⟩ : XYZ ℝ).sub (Num.rounded (fun x => x + x / 16) fun l => Real.sqrt (l.map (· ^ 2)).sum * (17 / 16)) ⟨0, 0, 1⟩ = .ok s ∧
    s.mag (Num.rounded (fun x => x + x / 16) fun l => Real.sqrt (l.map (· ^ 2)).sum * (17 / 16)) = .ok d ∧ |d - 5| ≤ 15 / 16 := by
  have hd : dist (⟨3, 4, 1⟩ : XYZ ℝ).vec (⟨0, 0, 1⟩ : XYZ ℝ).vec = 5 := by
    rw [EuclideanSpace.dist_eq]
    simp only [Fin.sum_univ_three, XYZ.vec, Real.dist_eq]
    rw [Real.sqrt_eq_iff_mul_self_eq (by positivity) (by norm_num)]
    norm_num
    exact sub_self (1 : ℝ)
  obtain ⟨s, d, h1, h2, h3⟩ := (C144_rounded_partial (r := fun x => x + x / 16) (len := fun l => Real.sqrt (l.map (· ^ 2)).sum * (17 / 16)) (u := 1 / 16) (tiny := 0) (big := 100)
    (by norm_num) (by norm_num) le_rfl (fun x _ => by rw [add_sub_cancel_left, abs_div, abs_of_pos (by norm_num : (0 : ℝ) < 16)]; linarith)
    (fun l _ => by
      have := Real.sqrt_nonneg ((l.map (· ^ 2)).sum)
      rw [show ∀ x : ℝ, x * (17 / 16) - x = x / 16 by intro x; ring, abs_of_nonneg (by positivity)]
      linarith) ⟨3, 4, 1⟩ ⟨0, 0, 1⟩ 0).2.2 (by rw [hd]; norm_num)
  rw [hd] at h3
  exact ⟨s, d, h1, h2, h3.trans (by norm_num)⟩

/-- C144 is false for integers: the sides of the triangle (0, 0), (2, 2), (3, 3) have the lengths 2, 1 and 4. -/
theorem C144_triangle_counterexample : (⟨2, 2⟩ : XY Int).mag Num.int = .ok 2 ∧ (⟨1, 1⟩ : XY Int).mag Num.int = .ok 1 ∧
    (⟨2, 2⟩ : XY Int).add Num.int ⟨1, 1⟩ = .ok ⟨3, 3⟩ ∧ (⟨3, 3⟩ : XY Int).mag Num.int = .ok 4 := by decide +kernel

/-- A point has coordinates of type `int`. -/
def XYZ.InRange (p : XYZ Int) : Prop := ∀ c ∈ [p.x, p.y, p.z], -2 ^ 31 ≤ c ∧ c < 2 ^ 31

theorem int32_ok {n : Int} (h : -2 ^ 31 ≤ n ∧ n < 2 ^ 31) : int32 n = .ok n := if_pos h
theorem int32_ub {n : Int} (h : ¬(-2 ^ 31 ≤ n ∧ n < 2 ^ 31)) : int32 n = .error .ub := if_neg h
theorem int32_eq {n m : Int} (h : int32 n = .ok m) : m = n ∧ -2 ^ 31 ≤ n ∧ n < 2 ^ 31 := by
  by_cases hn : -2 ^ 31 ≤ n ∧ n < 2 ^ 31
  · rw [int32_ok hn] at h; cases h; exact ⟨rfl, hn⟩
  · rw [int32_ub hn] at h; cases h

/-- C144 for integers: a sum is undefined exactly if a coordinate overflows; otherwise subtracting one summand gives the other. -/
theorem C144_overflow {p q : XYZ Int} (hp : p.InRange) :
    (¬XYZ.InRange ⟨p.x + q.x, p.y + q.y, p.z + q.z⟩ → p.add Num.int q = .error .ub) ∧
    (XYZ.InRange ⟨p.x + q.x, p.y + q.y, p.z + q.z⟩ → ∃ r, p.add Num.int q = .ok r ∧ r = ⟨p.x + q.x, p.y + q.y, p.z + q.z⟩ ∧ r.sub Num.int q = .ok p) := by
  constructor
  · intro h
    simp only [XYZ.add, Num.int]
    by_cases hx : -2 ^ 31 ≤ p.x + q.x ∧ p.x + q.x < 2 ^ 31
    · by_cases hy : -2 ^ 31 ≤ p.y + q.y ∧ p.y + q.y < 2 ^ 31
      · have hz : ¬(-2 ^ 31 ≤ p.z + q.z ∧ p.z + q.z < 2 ^ 31) := by
          intro hz
          apply h
          simp only [XYZ.InRange, List.mem_cons, List.not_mem_nil, or_false, forall_eq_or_imp, forall_eq]
          exact ⟨hx, hy, hz⟩
        rw [int32_ok hx, int32_ok hy, int32_ub hz]; rfl
      · rw [int32_ok hx, int32_ub hy]; rfl
    · rw [int32_ub hx]; rfl
  · intro h
    simp only [XYZ.InRange, List.mem_cons, List.not_mem_nil, or_false, forall_eq_or_imp, forall_eq] at h hp
    refine ⟨_, ?_, rfl, ?_⟩
    · simp only [XYZ.add, Num.int, int32_ok h.1, int32_ok h.2.1, int32_ok h.2.2, res_bind_ok, res_pure]
    · simp only [XYZ.sub, Num.int, Int.add_sub_cancel, int32_ok hp.1, int32_ok hp.2.1, int32_ok hp.2.2, res_bind_ok, res_pure]

example : ¬XYZ.InRange ⟨2147483647 + 1, 0, 0⟩ ∧ XYZ.InRange ⟨2147483647, 0, 0⟩ := by
  simp [XYZ.InRange]

theorem Num.int_division (a b : Int) (ha : -2 ^ 31 ≤ a ∧ a < 2 ^ 31) (hb : b ≠ 0) (hab : (a, b) ≠ (-2 ^ 31, -1)) :
    ∃ d m e, Num.int.div a b = .ok d ∧ Num.int.mod a b = .ok m ∧ Num.int.mul b d = .ok e ∧ Num.int.add e m = .ok a := by
  have hab' : ¬(a = -2 ^ 31 ∧ b = -1) := fun h => hab (by rw [h.1, h.2])
  have hsum := Int.mul_tdiv_add_tmod a b
  have habs : (a.tdiv b).natAbs ≤ a.natAbs := by rw [Int.natAbs_tdiv]; exact Nat.div_le_self _ _
  have hd : -2 ^ 31 ≤ a.tdiv b ∧ a.tdiv b < 2 ^ 31 := by
    refine ⟨by omega, Int.not_le.mp fun h => ?_⟩
    have ha' : a = -2 ^ 31 := by omega
    have h1 : (a.tdiv b).natAbs = 2 ^ 31 := by omega
    rw [Int.natAbs_tdiv, ha'] at h1
    have h2 : b.natAbs = 1 := by
      apply Classical.byContradiction
      intro hne
      have : 2 ≤ b.natAbs := by omega
      have : (2 ^ 31 : Nat) / b.natAbs ≤ 2 ^ 31 / 2 := Nat.div_le_div_left this (by decide)
      have h3 : ((-2 ^ 31 : Int)).natAbs = 2 ^ 31 := by decide
      rw [h3] at h1
      rw [show (2 ^ 31 : Nat) / b.natAbs = 2 ^ 31 from h1] at this
      exact absurd this (by decide)
    have hb1 : b = 1 := by
      rcases Int.natAbs_eq b with h | h <;> rw [h2] at h
      · exact h
      · exact absurd ⟨ha', h⟩ hab'
    rw [ha', hb1] at h
    norm_num at h
  have he : (b * a.tdiv b).natAbs ≤ a.natAbs := by
    rw [Int.natAbs_mul, Int.natAbs_tdiv]; exact Nat.mul_div_le _ _
  have he' : -2 ^ 31 ≤ b * a.tdiv b ∧ b * a.tdiv b < 2 ^ 31 := by
    refine ⟨by omega, Int.not_le.mp fun h => ?_⟩
    have ha' : a = -2 ^ 31 := by omega
    have : (a.tmod b).natAbs ≤ a.natAbs := by rw [Int.natAbs_tmod]; exact Nat.mod_le _ _
    omega
  refine ⟨a.tdiv b, a.tmod b, b * a.tdiv b, ?_, ?_, int32_ok he', ?_⟩
  · simp only [Num.int, if_neg hb, int32_ok hd]
  · simp only [Num.int]
    rw [if_neg (by rintro (h | h); exacts [hb h, hab' h])]
  · simp only [Num.int]
    rw [hsum, int32_ok ha]

/-- C144, division of points: `q * (p / q) + p % q` is `p` again, and all of it is defined, unless a coordinate of `q` is zero or a quotient overflows. -/
theorem C144_division {p q : XYZ Int} (hp : p.InRange) (hq : q.x ≠ 0 ∧ q.y ≠ 0 ∧ q.z ≠ 0)
    (hm : ∀ c ∈ [(p.x, q.x), (p.y, q.y), (p.z, q.z)], c ≠ (-2 ^ 31, -1)) :
    ∃ d m e, p.div Num.int q = .ok d ∧ p.mod Num.int q = .ok m ∧ q.mul Num.int d = .ok e ∧ e.add Num.int m = .ok p := by
  simp only [XYZ.InRange, List.mem_cons, List.not_mem_nil, or_false, forall_eq_or_imp, forall_eq] at hp hm
  obtain ⟨d1, m1, e1, a1, b1, c1, f1⟩ := Num.int_division _ _ hp.1 hq.1 hm.1
  obtain ⟨d2, m2, e2, a2, b2, c2, f2⟩ := Num.int_division _ _ hp.2.1 hq.2.1 hm.2.1
  obtain ⟨d3, m3, e3, a3, b3, c3, f3⟩ := Num.int_division _ _ hp.2.2 hq.2.2 hm.2.2
  refine ⟨⟨d1, d2, d3⟩, ⟨m1, m2, m3⟩, ⟨e1, e2, e3⟩, ?_, ?_, ?_, ?_⟩
  · simp only [XYZ.div, a1, a2, a3, res_bind_ok, res_pure]
  · simp only [XYZ.mod, b1, b2, b3, res_bind_ok, res_pure]
  · simp only [XYZ.mul, c1, c2, c3, res_bind_ok, res_pure]
  · simp only [XYZ.add, f1, f2, f3, res_bind_ok, res_pure]

example : (⟨-7, 7, 6⟩ : XYZ Int).div Num.int ⟨2, -2, 3⟩ = .ok ⟨-3, -3, 2⟩ ∧ (⟨-7, 7, 6⟩ : XYZ Int).mod Num.int ⟨2, -2, 3⟩ = .ok ⟨-1, 1, 0⟩ := by decide +kernel

/-- C144, division in the plane. -/
theorem C144_division_xy {p q : XY Int} (hp : ∀ c ∈ [p.x, p.y], -2 ^ 31 ≤ c ∧ c < 2 ^ 31) (hq : q.x ≠ 0 ∧ q.y ≠ 0)
    (hm : ∀ c ∈ [(p.x, q.x), (p.y, q.y)], c ≠ (-2 ^ 31, -1)) :
    ∃ d m e, p.div Num.int q = .ok d ∧ p.mod Num.int q = .ok m ∧ q.mul Num.int d = .ok e ∧ e.add Num.int m = .ok p := by
  simp only [List.mem_cons, List.not_mem_nil, or_false, forall_eq_or_imp, forall_eq] at hp hm
  obtain ⟨d1, m1, e1, a1, b1, c1, f1⟩ := Num.int_division _ _ hp.1 hq.1 hm.1
  obtain ⟨d2, m2, e2, a2, b2, c2, f2⟩ := Num.int_division _ _ hp.2 hq.2 hm.2
  refine ⟨⟨d1, d2⟩, ⟨m1, m2⟩, ⟨e1, e2⟩, ?_, ?_, ?_, ?_⟩
  · simp only [XY.div, a1, a2, res_bind_ok, res_pure]
  · simp only [XY.mod, b1, b2, res_bind_ok, res_pure]
  · simp only [XY.mul, c1, c2, res_bind_ok, res_pure]
  · simp only [XY.add, f1, f2, res_bind_ok, res_pure]

example : (⟨-7, 7⟩ : XY Int).div Num.int ⟨2, -2⟩ = .ok ⟨-3, -3⟩ ∧ (⟨-7, 7⟩ : XY Int).mod Num.int ⟨2, -2⟩ = .ok ⟨-1, 1⟩ := by decide +kernel

end Spine
