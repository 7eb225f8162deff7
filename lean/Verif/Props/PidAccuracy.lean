import Verif.Props.PidSteady
import Verif.Props.FilterAccuracy
/-!
# Property C138: how far the controller is from the exact one

C79 and C112 describe the controller in exact arithmetic. The code computes with `float`. Here it is proved how much a
computation can add to the distance between the two.
-/

namespace Spine

open F32 Fl Pid

namespace PidAccuracy
open FilterAccuracy

/-- A finite float of at most the given size. -/
def Good (x : Fl) (B : Rat) : Prop := x.fin = true ∧ x.Ok ∧ |x.val| ≤ B

theorem rnd_bound {q : Rat} {k : Int} (hk : -149 ≤ k) (h : |q| ≤ pow2 k) : |rnd q| ≤ pow2 k := by
  have h1 := rnd_mono h
  have h2 : rnd (pow2 k) = pow2 k := by
    have := rnd_exact (m := 1) (e := k) (by norm_num) hk
    simpa using this
  rwa [h2, Fl.rnd_abs] at h1

theorem add_close {x y : Fl} (hx : x.fin = true) (hxo : x.Ok) (hy : y.fin = true) (hyo : y.Ok) (h : |x.val + y.val| ≤ pow2 122) :
    (Fl.add x y).fin = true ∧ |(Fl.add x y).val - (x.val + y.val)| ≤ |x.val + y.val| / 2 ^ 24 := by
  have l : pow2 122 < pow2 128 := pow2_lt (by norm_num)
  have v := add_val hx hy ((rnd_bound (by norm_num) h).trans_lt l)
  rw [v.2]
  exact ⟨v.1, rnd_sum hxo.rnd_val hyo.rnd_val⟩

theorem sub_close {x y : Fl} (hx : x.fin = true) (hxo : x.Ok) (hy : y.fin = true) (hyo : y.Ok) (h : |x.val - y.val| ≤ pow2 122) :
    (Fl.sub x y).fin = true ∧ |(Fl.sub x y).val - (x.val - y.val)| ≤ |x.val - y.val| / 2 ^ 24 := by
  have l : pow2 122 < pow2 128 := pow2_lt (by norm_num)
  have v := sub_val hx hy ((rnd_bound (by norm_num) h).trans_lt l)
  rw [v.2]
  exact ⟨v.1, rnd_diff hxo.rnd_val hyo.rnd_val⟩

/-- A gain times a difference. -/
theorem product_close {k a b : Fl} {K X : Rat} (hk : Good k K) (ha : Good a X) (hb : Good b X) (hX : X ≤ pow2 120) (hG : 2 * K * X ≤ pow2 120) :
    (Fl.mul k (Fl.sub a b)).fin = true ∧ (Fl.mul k (Fl.sub a b)).Ok ∧
      |(Fl.mul k (Fl.sub a b)).val - k.val * (a.val - b.val)| ≤ 2001 / 1000 * (2 * K * X) / 2 ^ 24 + pow2 (-150) ∧ |k.val * (a.val - b.val)| ≤ 2 * K * X := by
  obtain ⟨k1, k2, k3⟩ := hk
  obtain ⟨a1, a2, a3⟩ := ha
  obtain ⟨b1, b2, b3⟩ := hb
  have e121 : pow2 121 = 2 * pow2 120 := by rw [← pow2_succ]; norm_num
  have e122 : pow2 122 = 2 * pow2 121 := by rw [← pow2_succ]; norm_num
  have p120 := pow2_pos 120
  have hd : |a.val - b.val| ≤ 2 * X := by have := abs_sub a.val b.val; linarith
  obtain ⟨d1, d2⟩ := sub_close a1 a2 b1 b2 (by linarith)
  generalize hdd : Fl.sub a b = d at *
  have dok : d.Ok := hdd ▸ sub_ok a b
  have hkd : |k.val * (a.val - b.val)| ≤ 2 * K * X := by
    rw [abs_mul]
    calc |k.val| * |a.val - b.val| ≤ K * (2 * X) := mul_le_mul k3 hd (abs_nonneg _) ((abs_nonneg _).trans k3)
      _ = 2 * K * X := by ring
  have hq : |k.val * d.val - k.val * (a.val - b.val)| ≤ 2 * K * X / 2 ^ 24 := by
    rw [← mul_sub, abs_mul]
    calc |k.val| * |d.val - (a.val - b.val)| ≤ |k.val| * (|a.val - b.val| / 2 ^ 24) := mul_le_mul_of_nonneg_left d2 (abs_nonneg _)
      _ = |k.val * (a.val - b.val)| / 2 ^ 24 := by rw [abs_mul]; ring
      _ ≤ _ := by linarith
  have hsz : |k.val * d.val| ≤ 2 * K * X + 2 * K * X / 2 ^ 24 := by
    have := abs_sub_abs_le_abs_sub (k.val * d.val) (k.val * (a.val - b.val)); linarith
  have l : pow2 122 < pow2 128 := pow2_lt (by norm_num)
  have v := mul_val k1 d1 k2 dok ((rnd_bound (k := 122) (by norm_num) (by linarith)).trans_lt l)
  have hr := rnd_err_all (k.val * d.val)
  refine ⟨v.1, mul_ok k2 dok, ?_, hkd⟩
  rw [v.2]
  have h0 : 0 ≤ 2 * K * X := (abs_nonneg _).trans hkd
  rw [abs_le] at hr hq ⊢
  constructor <;> linarith

/-- Clamping in single precision is exact. -/
theorem clamp_val {lo hi x : Fl} (h1 : lo.fin = true) (h2 : hi.fin = true) (h3 : x.fin = true) :
    (clamp lo hi x).fin = true ∧ (clamp lo hi x).val = clamp lo.val hi.val x.val := by
  simp only [clamp]
  change (if Fl.lt hi x then hi else if Fl.lt x lo then lo else x).fin = true ∧ (if Fl.lt hi x then hi else if Fl.lt x lo then lo else x).val =
    if decide (hi.val < x.val) then hi.val else if decide (x.val < lo.val) then lo.val else x.val
  have e1 : Fl.lt hi x = decide (hi.val < x.val) := by rw [Bool.eq_iff_iff, lt_iff h2 h3]; simp
  have e2 : Fl.lt x lo = decide (x.val < lo.val) := by rw [Bool.eq_iff_iff, lt_iff h3 h1]; simp
  rw [e1, e2]
  split
  · exact ⟨h2, rfl⟩
  · split
    · exact ⟨h1, rfl⟩
    · exact ⟨h3, rfl⟩

theorem clamp_ok {lo hi x : Fl} (h1 : lo.Ok) (h2 : hi.Ok) (h3 : x.Ok) : (clamp lo hi x).Ok := by
  unfold clamp
  split
  · exact h2
  · split
    · exact h1
    · exact h3

/-- Clamping does not take two numbers further apart. -/
theorem clamp_lipschitz {lo hi x y e : Rat} (hl : lo ≤ hi) (h : |x - y| ≤ e) : |clamp lo hi x - clamp lo hi y| ≤ e := by
  simp only [clamp, Arith.lt, decide_eq_true_eq]
  rw [abs_le] at h ⊢
  split_ifs <;> constructor <;> linarith

theorem clamp_size {lo hi x L : Rat} (hl : lo ≤ hi) (h1 : |lo| ≤ L) (h2 : |hi| ≤ L) : |clamp lo hi x| ≤ L := by
  simp only [clamp, Arith.lt, decide_eq_true_eq]
  rw [abs_le] at *
  split_ifs <;> constructor <;> linarith

/-- A controller in single precision and one in exact arithmetic with the same settings and readings; `e` and `e'` bound the
differences of the integral and of the output. -/
structure Near (X K L e e' : Rat) (s : Pid Fl) (t : Pid Rat) : Prop where
  kp : Good s.kp K
  ki : Good s.ki K
  kd : Good s.kd K
  setpoint : Good s.setpoint X
  input : Good s.input X
  lastReading : Good s.lastReading X
  lo : Good s.lo L
  hi : Good s.hi L
  ordered : s.lo.val ≤ s.hi.val
  cumulative : Good s.cumulative L
  settings : t.kp = s.kp.val ∧ t.ki = s.ki.val ∧ t.kd = s.kd.val ∧ t.setpoint = s.setpoint.val ∧ t.input = s.input.val ∧
    t.lastReading = s.lastReading.val ∧ t.lo = s.lo.val ∧ t.hi = s.hi.val ∧ t.lastTime = s.lastTime ∧ t.sampling = s.sampling ∧
    t.onMeasurement = s.onMeasurement
  integral : |s.cumulative.val - t.cumulative| ≤ e
  outFin : s.output.fin = true
  out : |s.output.val - t.output| ≤ e'

/-- What a computation can add. -/
def stepError (X K L : Rat) : Rat := (3 * L + 16 * (K * X)) / 2 ^ 24 + pow2 (-148)

theorem step_close {X K L e e' : Rat} {s : Pid Fl} {t : Pid Rat} (h : Near X K L e e' s t) (hX : X ≤ pow2 120) (hG : 2 * K * X ≤ pow2 120)
    (hL : L ≤ pow2 120) (now : Int) : Near X K L (e + stepError X K L) (e + 2 * stepError X K L) (s.compute now) (t.compute now) := by
  obtain ⟨hkp, hki, hkd, hsp, hin, hlr, hlo, hhi, hord, hcum, ⟨t1, t2, t3, t4, t5, t6, t7, t8, t9, t10, t11⟩, hint, hof, hout⟩ := h
  have h148 : pow2 (-148) = 4 * pow2 (-150) := by
    rw [show (-148 : Int) = -150 + 1 + 1 by norm_num, pow2_succ, pow2_succ]; ring
  have ep := pow2_pos (-150)
  have esmall : pow2 (-150) ≤ pow2 100 := (pow2_lt (by norm_num)).le
  have ebig : pow2 120 = 2 ^ 20 * pow2 100 := by
    have : ∀ n : Nat, pow2 (100 + n) = 2 ^ n * pow2 100 := by
      intro n
      induction n with
      | zero => simp
      | succ n ih => rw [show (100 : Int) + ((n + 1 : Nat) : Int) = 100 + (n : Int) + 1 by push_cast; ring, pow2_succ, ih]; ring
    simpa using this 20
  have e122 : pow2 122 = 4 * pow2 120 := by
    rw [show (122 : Int) = 120 + 1 + 1 by norm_num, pow2_succ, pow2_succ]; ring
  have L0 : 0 ≤ L := (abs_nonneg _).trans hlo.2.2
  obtain ⟨i1, i2, i3, i4⟩ := product_close hki hsp hin hX hG
  obtain ⟨d1, d2, d3, d4⟩ := product_close hkd hin hlr hX hG
  obtain ⟨p1, p2, p3, p4⟩ := product_close hkp hsp hin hX hG
  obtain ⟨m1, m2, m3, m4⟩ := product_close hkp hin hlr hX hG
  have hGG : 16 * (K * X) = 8 * (2 * K * X) := by ring
  have G0 : 0 ≤ 2 * K * X := (abs_nonneg _).trans i4
  simp only [stepError, hGG, h148]
  generalize 2 * K * X = G at *
  -- the integral
  have hc : ∃ c : Fl, c.fin = true ∧ c.Ok ∧ |c.val - (t.cumulative + t.ki * (t.setpoint - t.input) - (cond s.onMeasurement t.kp 0) * (t.input - t.lastReading))| ≤
        e + ((3 * L + 8 * G) / 2 ^ 24 + 4 * pow2 (-150)) ∧
      (s.compute now).cumulative = clamp s.lo s.hi c := by
    have cs := abs_add_le s.cumulative.val (Fl.mul s.ki (Fl.sub s.setpoint s.input)).val
    have is := abs_sub_abs_le_abs_sub (Fl.mul s.ki (Fl.sub s.setpoint s.input)).val (s.ki.val * (s.setpoint.val - s.input.val))
    have c3 := hcum.2.2
    obtain ⟨a1, a2⟩ := add_close hcum.1 hcum.2.1 i1 i2 (by linarith)
    have a3 := add_ok s.cumulative (Fl.mul s.ki (Fl.sub s.setpoint s.input))
    cases hm : s.onMeasurement
    · refine ⟨Fl.add s.cumulative (Fl.mul s.ki (Fl.sub s.setpoint s.input)), a1, a3, ?_, ?_⟩
      · simp only [t2, t4, t5, cond_false, zero_mul, sub_zero]
        generalize (Fl.add s.cumulative (Fl.mul s.ki (Fl.sub s.setpoint s.input))).val = w at *
        generalize (Fl.mul s.ki (Fl.sub s.setpoint s.input)).val = i at *
        generalize s.ki.val * (s.setpoint.val - s.input.val) = ix at *
        have a4 : |s.cumulative.val + i| / 2 ^ 24 ≤ (L + 5 / 4 * G + pow2 (-150)) / 2 ^ 24 := by
          apply div_le_div_of_nonneg_right _ (by norm_num)
          linarith
        replace a2 := a2.trans a4
        rw [abs_le] at a2 i3 hint ⊢
        constructor <;> linarith
      · simp only [compute, hm]; rfl
    · have ms := abs_sub_abs_le_abs_sub (Fl.mul s.kp (Fl.sub s.input s.lastReading)).val (s.kp.val * (s.input.val - s.lastReading.val))
      have ws := abs_sub_abs_le_abs_sub (Fl.add s.cumulative (Fl.mul s.ki (Fl.sub s.setpoint s.input))).val
        (s.cumulative.val + (Fl.mul s.ki (Fl.sub s.setpoint s.input)).val)
      have bs := abs_sub (Fl.add s.cumulative (Fl.mul s.ki (Fl.sub s.setpoint s.input))).val (Fl.mul s.kp (Fl.sub s.input s.lastReading)).val
      obtain ⟨b1, b2⟩ := sub_close a1 a3 m1 m2 (by linarith)
      refine ⟨_, b1, sub_ok _ _, ?_, ?_⟩
      · simp only [t1, t2, t4, t5, t6, cond_true]
        generalize (Fl.sub (Fl.add s.cumulative (Fl.mul s.ki (Fl.sub s.setpoint s.input))) (Fl.mul s.kp (Fl.sub s.input s.lastReading))).val = z at *
        generalize (Fl.add s.cumulative (Fl.mul s.ki (Fl.sub s.setpoint s.input))).val = w at *
        generalize (Fl.mul s.ki (Fl.sub s.setpoint s.input)).val = i at *
        generalize s.ki.val * (s.setpoint.val - s.input.val) = ix at *
        generalize (Fl.mul s.kp (Fl.sub s.input s.lastReading)).val = m at *
        generalize s.kp.val * (s.input.val - s.lastReading.val) = mx at *
        have b3 : |w - m| / 2 ^ 24 ≤ (3 / 2 * L + 9 / 4 * G + 3 * pow2 (-150)) / 2 ^ 24 := by
          apply div_le_div_of_nonneg_right _ (by norm_num)
          linarith
        have a4 : |s.cumulative.val + i| / 2 ^ 24 ≤ (L + 5 / 4 * G + pow2 (-150)) / 2 ^ 24 := by
          apply div_le_div_of_nonneg_right _ (by norm_num)
          linarith
        replace b2 := b2.trans b3
        replace a2 := a2.trans a4
        rw [abs_le] at a2 b2 i3 m3 hint ⊢
        constructor <;> linarith
      · simp only [compute, hm]; rfl
  obtain ⟨c, c1, c2, c3, c4⟩ := hc
  have k := clamp_val hlo.1 hhi.1 c1
  have kL : |(clamp s.lo s.hi c).val| ≤ L := by rw [k.2]; exact clamp_size hord hlo.2.2 hhi.2.2
  have kok := clamp_ok hlo.2.1 hhi.2.1 c2
  have kerr := clamp_lipschitz hord c3
  rw [← k.2] at kerr
  have tc : (t.compute now).cumulative = clamp s.lo.val s.hi.val
      (t.cumulative + t.ki * (t.setpoint - t.input) - (cond s.onMeasurement t.kp 0) * (t.input - t.lastReading)) := by
    rw [compute_rat, t7, t8, t11]
  -- the output
  have ho : ∃ o : Fl, o.fin = true ∧ |o.val - ((cond s.onMeasurement 0 t.kp) * (t.setpoint - t.input) + ((t.compute now).cumulative - t.kd * (t.input - t.lastReading)))| ≤
        e + 2 * ((3 * L + 8 * G) / 2 ^ 24 + 4 * pow2 (-150)) ∧
      (s.compute now).output = clamp s.lo s.hi o := by
    have ds := abs_sub_abs_le_abs_sub (Fl.mul s.kd (Fl.sub s.input s.lastReading)).val (s.kd.val * (s.input.val - s.lastReading.val))
    have qs := abs_sub (clamp s.lo s.hi c).val (Fl.mul s.kd (Fl.sub s.input s.lastReading)).val
    obtain ⟨q1, q2⟩ := sub_close k.1 kok d1 d2 (by linarith)
    have q3 := sub_ok (clamp s.lo s.hi c) (Fl.mul s.kd (Fl.sub s.input s.lastReading))
    have rs := abs_sub_abs_le_abs_sub (Fl.sub (clamp s.lo s.hi c) (Fl.mul s.kd (Fl.sub s.input s.lastReading))).val
      ((clamp s.lo s.hi c).val - (Fl.mul s.kd (Fl.sub s.input s.lastReading)).val)
    have hz : ∃ p : Fl, p.fin = true ∧ p.Ok ∧ |p.val - (cond s.onMeasurement 0 s.kp.val) * (s.setpoint.val - s.input.val)| ≤ 2001 / 1000 * G / 2 ^ 24 + pow2 (-150) ∧
        |(cond s.onMeasurement 0 s.kp.val) * (s.setpoint.val - s.input.val)| ≤ G ∧
        (s.compute now).output = clamp s.lo s.hi (Fl.add p (Fl.sub (clamp s.lo s.hi c) (Fl.mul s.kd (Fl.sub s.input s.lastReading)))) := by
      rw [← c4]
      cases hm : s.onMeasurement
      · exact ⟨_, p1, p2, p3, p4, by simp only [compute, hm]; rfl⟩
      · have z : (fzero : Fl) = .num false 0 := by decide +kernel
        refine ⟨fzero, by rw [z]; rfl, by rw [z]; exact ⟨le_refl _, Fl.rnd_zero, pow2_pos _⟩, ?_, ?_, by simp only [compute, hm]; rfl⟩
        · rw [z]; simp only [Fl.val, cond_true]; simp; positivity
        · simpa using G0
    obtain ⟨p, z1, z2, z3, z4, z5⟩ := hz
    have zs := abs_sub_abs_le_abs_sub p.val ((cond s.onMeasurement 0 s.kp.val) * (s.setpoint.val - s.input.val))
    have os := abs_add_le p.val (Fl.sub (clamp s.lo s.hi c) (Fl.mul s.kd (Fl.sub s.input s.lastReading))).val
    obtain ⟨o1, o2⟩ := add_close z1 z2 q1 q3 (by linarith)
    refine ⟨_, o1, ?_, z5⟩
    rw [tc]
    simp only [t1, t2, t3, t4, t5, t6] at kerr ⊢
    generalize clamp s.lo.val s.hi.val _ = cx at *
    generalize (Fl.add p (Fl.sub (clamp s.lo s.hi c) (Fl.mul s.kd (Fl.sub s.input s.lastReading)))).val = o at *
    generalize (Fl.sub (clamp s.lo s.hi c) (Fl.mul s.kd (Fl.sub s.input s.lastReading))).val = q at *
    generalize (Fl.mul s.kd (Fl.sub s.input s.lastReading)).val = d at *
    generalize s.kd.val * (s.input.val - s.lastReading.val) = dx at *
    generalize (clamp s.lo s.hi c).val = cv at *
    generalize (cond s.onMeasurement 0 s.kp.val) * (s.setpoint.val - s.input.val) = px at *
    have b3 : |p.val + q| / 2 ^ 24 ≤ (3 / 2 * L + 9 / 4 * G + 3 * pow2 (-150)) / 2 ^ 24 := by
      apply div_le_div_of_nonneg_right _ (by norm_num)
      linarith
    have a4 : |cv - d| / 2 ^ 24 ≤ (L + 5 / 4 * G + pow2 (-150)) / 2 ^ 24 := by
      apply div_le_div_of_nonneg_right _ (by norm_num)
      linarith
    replace o2 := o2.trans b3
    replace q2 := q2.trans a4
    rw [abs_le] at o2 q2 z3 d3 kerr ⊢
    constructor <;> linarith
  obtain ⟨o, o1, o2, o3⟩ := ho
  have ko := clamp_val hlo.1 hhi.1 o1
  have hto : (t.compute now).output = clamp s.lo.val s.hi.val
      ((cond s.onMeasurement 0 t.kp) * (t.setpoint - t.input) + ((t.compute now).cumulative - t.kd * (t.input - t.lastReading))) := by
    rw [compute_rat, t7, t8, t11]
  refine ⟨hkp, hki, hkd, hsp, hin, hin, hlo, hhi, hord, ?_, ⟨t1, t2, t3, t4, t5, t5, t7, t8, rfl, t10, t11⟩, ?_, ?_, ?_⟩
  · rw [c4]; exact ⟨k.1, kok, kL⟩
  · rw [c4, tc]; exact kerr
  · rw [o3]; exact ko.1
  · rw [o3, hto, ko.2]; exact clamp_lipschitz hord o2

theorem stepError_nonneg {X K L : Rat} (hG : 0 ≤ K * X) (hL : 0 ≤ L) : 0 ≤ stepError X K L := by
  have := pow2_pos (-148)
  unfold stepError
  positivity

/-- Whether a reading is used depends on the times only. -/
theorem reading_close {X K L e : Rat} {s s' : Pid Fl} {t : Pid Rat} (h : Near X K L e (e + stepError X K L) s t) (hX : X ≤ pow2 120) (hG : 2 * K * X ≤ pow2 120)
    (hL : L ≤ pow2 120) {v : Fl} (hv : Good v X) {now : Int} {f : Bool} (hr : PID.newReading s v now = .ok (f, s')) :
    ∃ t', PID.newReading t v.val now = .ok (f, t') ∧ Near X K L (if f then e + stepError X K L else e) (if f then e + 2 * stepError X K L else e + stepError X K L) s' t' := by
  have h1 : Near X K L e (e + stepError X K L) { s with input := v } { t with input := v.val } := by
    obtain ⟨a1, a2, a3, a4, a5, a6, a7, a8, a9, a10, ⟨t1, t2, t3, t4, t5, t6, t7, t8, t9, t10, t11⟩, a11, a12, a13⟩ := h
    exact ⟨a1, a2, a3, a4, hv, a6, a7, a8, a9, a10, ⟨t1, t2, t3, t4, rfl, t6, t7, t8, t9, t10, t11⟩, a11, a12, a13⟩
  have ht := h.settings.2.2.2.2.2.2.2.2
  have hn : PID.newReading t v.val now = .ok (f, if f then ({ t with input := v.val } : Pid Rat).compute now else { t with input := v.val }) := by
    simp only [PID.newReading, update] at hr ⊢
    rw [ht.1, ht.2.1]
    obtain ⟨d, hd, hr⟩ := res_bind hr
    obtain ⟨c, hc, hr⟩ := res_bind hr
    rw [hd, res_bind_ok, hc, res_bind_ok]
    cases c <;> cases hr <;> rfl
  refine ⟨_, hn, ?_⟩
  cases f
  · rw [newReading_false hr]; exact h1
  · rw [newReading_true hr]; exact step_close h1 hX hG hL now

/-- The controller with the numbers its floats stand for. -/
def exact (s : Pid Fl) : Pid Rat :=
  { kp := s.kp.val, ki := s.ki.val, kd := s.kd.val, reverse := s.reverse, input := s.input.val, output := s.output.val, setpoint := s.setpoint.val,
    lastTime := s.lastTime, cumulative := s.cumulative.val, lastReading := s.lastReading.val, sampling := s.sampling, lo := s.lo.val, hi := s.hi.val,
    onMeasurement := s.onMeasurement }

end PidAccuracy

open PidAccuracy

/-- **C138.** Readings and setpoint of at most `X`, gains of at most `K` and limits of at most `L`: after any series of readings, `n` of which were used, the integral
differs from that of a controller in exact arithmetic by at most `n` times (3 L + 16 K X) 2^-24 (plus a denormal number), and the output by at most `n + 1` times as much.
Both controllers use the same readings. -/
theorem C138_drift {s s' : Pid Fl} {X K L : Rat} (hk : ∀ z ∈ [s.kp, s.ki, s.kd], Good z K) (hx : ∀ z ∈ [s.setpoint, s.input, s.lastReading], Good z X)
    (hl : ∀ z ∈ [s.lo, s.hi, s.cumulative], Good z L) (hord : Fl.le s.lo s.hi = true) (ho : s.output.fin = true)
    (hX : X ≤ pow2 120) (hG : 2 * K * X ≤ pow2 120) (hL : L ≤ pow2 120) {rs : List (Int × Fl)} (hrs : ∀ r ∈ rs, Good r.2 X) {fs : List Bool}
    (h : PID.readings s rs = .ok (fs, s')) :
    ∃ t', PID.readings (exact s) (rs.map fun r => (r.1, r.2.val)) = .ok (fs, t') ∧ s'.cumulative.fin = true ∧ s'.output.fin = true ∧
      |s'.cumulative.val - t'.cumulative| ≤ fs.count true * ((3 * L + 16 * (K * X)) / 2 ^ 24 + pow2 (-148)) ∧
      |s'.output.val - t'.output| ≤ (fs.count true + 1) * ((3 * L + 16 * (K * X)) / 2 ^ 24 + pow2 (-148)) := by
  have hkx : 0 ≤ K * X := by
    have h1 := (hk s.kp (by simp)).2.2
    have h2 := (hx s.setpoint (by simp)).2.2
    exact mul_nonneg ((abs_nonneg _).trans h1) ((abs_nonneg _).trans h2)
  have hl0 : 0 ≤ L := (abs_nonneg _).trans (hl s.lo (by simp)).2.2
  have hpos := stepError_nonneg hkx hl0
  have key : ∀ (rs : List (Int × Fl)) (s s' : Pid Fl) (t : Pid Rat) (e : Rat) (fs : List Bool), (∀ r ∈ rs, Good r.2 X) → Near X K L e (e + stepError X K L) s t →
      PID.readings s rs = .ok (fs, s') → ∃ t', PID.readings t (rs.map fun r => (r.1, r.2.val)) = .ok (fs, t') ∧
        Near X K L (e + fs.count true * stepError X K L) (e + fs.count true * stepError X K L + stepError X K L) s' t' := by
    intro rs
    induction rs with
    | nil =>
      intro s s' t e fs _ hn h
      cases h
      exact ⟨t, rfl, by simpa using hn⟩
    | cons r rs ih =>
      intro s s' t e fs hrs hn h
      obtain ⟨now, v⟩ := r
      simp only [PID.readings] at h
      obtain ⟨⟨f, s1⟩, h1, h⟩ := res_bind h
      obtain ⟨⟨fs1, s2⟩, h2, h⟩ := res_bind h
      cases h
      obtain ⟨t1, e1, n1⟩ := reading_close hn hX hG hL (hrs (now, v) List.mem_cons_self) h1
      have hrest : ∀ r ∈ rs, Good r.2 X := fun r hr => hrs r (List.mem_cons_of_mem _ hr)
      cases f
      · obtain ⟨t', e2, n2⟩ := ih s1 s2 t1 e fs1 hrest n1 h2
        refine ⟨t', ?_, ?_⟩
        · simp only [List.map_cons, PID.readings, e1, res_bind_ok, e2, res_pure]
        · simpa using n2
      · simp only [if_true] at n1
        obtain ⟨t', e2, n2⟩ := ih s1 s2 t1 (e + stepError X K L) fs1 hrest (by rwa [add_assoc, ← two_mul]) h2
        refine ⟨t', ?_, ?_⟩
        · simp only [List.map_cons, PID.readings, e1, res_bind_ok, e2, res_pure]
        · rw [List.count_cons_self]
          push_cast
          rwa [show e + ((fs1.count true : Rat) + 1) * stepError X K L = e + stepError X K L + fs1.count true * stepError X K L by ring]
  have h0 : Near X K L 0 (0 + stepError X K L) s (exact s) := by
    refine ⟨hk _ (by simp), hk _ (by simp), hk _ (by simp), hx _ (by simp), hx _ (by simp), hx _ (by simp), hl _ (by simp), hl _ (by simp),
      (le_iff (hl s.lo (by simp)).1 (hl s.hi (by simp)).1).mp hord, hl _ (by simp), ⟨rfl, rfl, rfl, rfl, rfl, rfl, rfl, rfl, rfl, rfl, rfl⟩, ?_, ho, ?_⟩
    · simp [exact]
    · simpa [exact] using hpos
  obtain ⟨t', e1, n1⟩ := key rs s s' (exact s) 0 fs hrs h0 h
  refine ⟨t', e1, n1.cumulative.1, n1.outFin, ?_, ?_⟩
  · have := n1.integral
    rwa [zero_add] at this
  · have := n1.out
    rw [zero_add] at this
    unfold stepError at this
    linarith

/-- An integrator at 2^24. -/
def integrator : Pid Fl :=
  { kp := Fl.ofRat 0, ki := Fl.ofRat 1, kd := Fl.ofRat 0, reverse := false, input := Fl.ofRat 0, output := Fl.ofRat (2 ^ 24), setpoint := Fl.ofRat (1 / 2), lastTime := 0,
    cumulative := Fl.ofRat (2 ^ 24), lastReading := Fl.ofRat 0, sampling := 100, lo := Fl.ofRat 0, hi := Fl.ofRat (2 ^ 25), onMeasurement := false }

/-- The hypotheses of **C138** are met by it; two of three readings are used. -/
example : (∀ z ∈ [integrator.kp, integrator.ki, integrator.kd], Good z 1) ∧ (∀ z ∈ [integrator.setpoint, integrator.input, integrator.lastReading], Good z 1) ∧
    (∀ z ∈ [integrator.lo, integrator.hi, integrator.cumulative], Good z (2 ^ 25)) ∧ Fl.le integrator.lo integrator.hi = true ∧ integrator.output.fin = true ∧
    (PID.readings integrator [(100, Fl.ofRat 0), (150, Fl.ofRat 0), (200, Fl.ofRat 0)]).map Prod.fst = .ok [true, false, true] := by
  have e : ∀ q : Rat, (Fl.ofRat q).fin = true → |(Fl.ofRat q).val| ≤ 1 → Good (Fl.ofRat q) 1 := fun q h1 h2 => ⟨h1, ofRat_ok q, h2⟩
  have e' : ∀ q : Rat, (Fl.ofRat q).fin = true → |(Fl.ofRat q).val| ≤ 2 ^ 25 → Good (Fl.ofRat q) (2 ^ 25) := fun q h1 h2 => ⟨h1, ofRat_ok q, h2⟩
  refine ⟨?_, ?_, ?_, by decide +kernel, by decide +kernel, by decide +kernel⟩
  · intro z hz
    simp only [integrator, List.mem_cons, List.not_mem_nil, or_false] at hz
    rcases hz with rfl | rfl | rfl <;> exact e _ (by decide +kernel) (by decide +kernel)
  · intro z hz
    simp only [integrator, List.mem_cons, List.not_mem_nil, or_false] at hz
    rcases hz with rfl | rfl | rfl <;> exact e _ (by decide +kernel) (by decide +kernel)
  · intro z hz
    simp only [integrator, List.mem_cons, List.not_mem_nil, or_false] at hz
    rcases hz with rfl | rfl | rfl <;> exact e' _ (by decide +kernel) (by decide +kernel)

theorem integrator_computes (t now : Int) : ({ integrator with lastTime := t } : Pid Fl).compute now = { integrator with lastTime := now } := by
  have h : ∃ c o : Fl, ({ integrator with lastTime := t } : Pid Fl).compute now = { integrator with lastTime := now, cumulative := c, output := o } ∧
      c = (integrator.compute 0).cumulative ∧ o = (integrator.compute 0).output := ⟨_, _, rfl, rfl, rfl⟩
  obtain ⟨c, o, h1, h2, h3⟩ := h
  have e1 : (integrator.compute 0).cumulative = Fl.ofRat (2 ^ 24) := by decide +kernel
  have e2 : (integrator.compute 0).output = Fl.ofRat (2 ^ 24) := by decide +kernel
  rw [h1, h2, h3, e1, e2]
  rfl

/-- **C138**, the bound has to grow with the number of computations: after `n` of them, this controller is `n / 2` away from the exact one. -/
theorem C138_linear (rs : List (Int × Fl)) (hv : ∀ r ∈ rs, r.2 = Fl.ofRat 0) {fs : List Bool} {s' : Pid Fl} (h : PID.readings integrator rs = .ok (fs, s'))
    (hn : fs.count true ≤ 2 ^ 25) : ∃ t', PID.readings (exact integrator) (rs.map fun r => (r.1, r.2.val)) = .ok (fs, t') ∧
      s'.output.val = 2 ^ 24 ∧ t'.output = 2 ^ 24 + (fs.count true : Rat) / 2 := by
  have x0 : exact integrator =
      { kp := 0, ki := 1, kd := 0, reverse := false, input := 0, output := 2 ^ 24, setpoint := 1 / 2, lastTime := 0,
        cumulative := 2 ^ 24, lastReading := 0, sampling := 100, lo := 0, hi := 2 ^ 25, onMeasurement := false } := by decide +kernel
  have v0 : (Fl.ofRat 0).val = 0 := by decide +kernel
  have key : ∀ (rs : List (Int × Fl)), (∀ r ∈ rs, r.2 = Fl.ofRat 0) → ∀ (t : Int) (k : Nat) (fs : List Bool) (s' : Pid Fl), k + fs.count true ≤ 2 ^ 25 →
      PID.readings { integrator with lastTime := t } rs = .ok (fs, s') →
      ∃ t', PID.readings { exact integrator with lastTime := t, cumulative := 2 ^ 24 + (k : Rat) / 2, output := 2 ^ 24 + (k : Rat) / 2 } (rs.map fun r => (r.1, r.2.val)) =
        .ok (fs, t') ∧ s'.output.val = 2 ^ 24 ∧ t'.output = 2 ^ 24 + ((k + fs.count true : Nat) : Rat) / 2 := by
    intro rs
    induction rs with
    | nil =>
      intro _ t k fs s' _ h
      cases h
      refine ⟨_, rfl, ?_, by simp⟩
      change integrator.output.val = _
      decide +kernel
    | cons r rs ih =>
      intro hv t k fs s' hn h
      obtain ⟨now, w⟩ := r
      have hw : w = Fl.ofRat 0 := hv (now, w) List.mem_cons_self
      subst hw
      have hrest : ∀ r ∈ rs, r.2 = Fl.ofRat 0 := fun r hr => hv r (List.mem_cons_of_mem _ hr)
      simp only [PID.readings] at h
      obtain ⟨⟨f, s1⟩, h1, h⟩ := res_bind h
      obtain ⟨⟨fs1, s2⟩, h2, h⟩ := res_bind h
      cases h
      have hx : ∀ T : Pid Rat, T.lastTime = t → T.sampling = 100 → PID.newReading T 0 now = .ok (f, if f then ({ T with input := 0 } : Pid Rat).compute now else { T with input := 0 }) := by
        intro T hT hS
        simp only [PID.newReading, update] at h1 ⊢
        rw [hT, hS]
        obtain ⟨d, hd, h1⟩ := res_bind h1
        obtain ⟨c, hc, h1⟩ := res_bind h1
        rw [hd, res_bind_ok]
        change (msGe d integrator.sampling >>= _) = _
        rw [hc, res_bind_ok]
        cases c <;> cases h1 <;> rfl
      have hx' := hx { exact integrator with lastTime := t, cumulative := 2 ^ 24 + (k : Rat) / 2, output := 2 ^ 24 + (k : Rat) / 2 } rfl rfl
      cases f
      · rw [newReading_false h1] at h2
        obtain ⟨t', g1, g2, g3⟩ := ih hrest t k fs1 s2 (by simpa using hn) h2
        refine ⟨t', ?_, g2, by simpa using g3⟩
        simp only [List.map_cons, PID.readings, v0, hx', res_bind_ok, Bool.false_eq_true, if_false]
        rw [x0] at g1 ⊢
        simp only at g1 ⊢
        rw [g1]
        rfl
      · rw [newReading_true h1] at h2
        have hc := integrator_computes t now
        rw [List.count_cons_self] at hn
        simp only at hn
        obtain ⟨t', g1, g2, g3⟩ := ih hrest now (k + 1) fs1 s2 (by omega) (hc ▸ h2)
        refine ⟨t', ?_, g2, ?_⟩
        · simp only [List.map_cons, PID.readings, v0, hx', res_bind_ok, if_true]
          rw [x0] at g1 ⊢
          rw [compute_rat]
          simp only [cond_false] at g1 ⊢
          have hk : (k : Rat) + 1 ≤ 2 ^ 25 := by
            have : k + 1 ≤ 2 ^ 25 := by omega
            exact_mod_cast this
          have hk0 : (0 : Rat) ≤ k := Nat.cast_nonneg k
          have e1 : clamp (0 : Rat) (2 ^ 25) (2 ^ 24 + (k : Rat) / 2 + 1 * (1 / 2 - 0) - 0 * (0 - 0)) = 2 ^ 24 + ((k + 1 : Nat) : Rat) / 2 := by
            rw [clamp_rat (by push_cast; linarith) (by push_cast; linarith)]
            push_cast; ring
          have e2 : clamp (0 : Rat) (2 ^ 25) (0 * (1 / 2 - 0) + (2 ^ 24 + ((k + 1 : Nat) : Rat) / 2 - 0 * (0 - 0))) = 2 ^ 24 + ((k + 1 : Nat) : Rat) / 2 := by
            rw [clamp_rat (by push_cast; linarith) (by push_cast; linarith)]
            push_cast; ring
          rw [e1, e2, g1]
          rfl
        · rw [g3, List.count_cons_self]
          push_cast; ring
  have := key rs hv 0 0 fs s' (by simpa using hn) h
  simp only [Nat.cast_zero, zero_div, add_zero, Nat.zero_add] at this
  have e0 : ({ exact integrator with lastTime := 0, cumulative := 2 ^ 24, output := 2 ^ 24 } : Pid Rat) = exact integrator := by decide +kernel
  rwa [e0] at this

end Spine
