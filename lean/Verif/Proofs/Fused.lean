import Verif.Model.Fused
import Verif.Props.PidAccuracy
import Verif.Props.FilterOrder
/-!
# Proofs about contracted sums
-/

namespace Spine

open F32 Fl Pid

namespace Fl

theorem fma_val {a b c : Fl} (ha : a.fin = true) (hb : b.fin = true) (hc : c.fin = true) (h : |rnd (a.val * b.val + c.val)| < pow2 128) :
    (fma a b c).fin = true ∧ (fma a b c).val = rnd (a.val * b.val + c.val) := by
  cases a with
  | nan => cases ha
  | inf s => cases ha
  | num s m =>
    cases b with
    | nan => cases hb
    | inf s => cases hb
    | num t n =>
      cases c with
      | nan => cases hc
      | inf s => cases hc
      | num u k =>
        simp only [fma]
        split
        · next h0 => rw [h0]; simp [fin, val]
        · exact ofRat_val h

theorem fma_ok {a b c : Fl} (ha : a.Ok) (hb : b.Ok) : (fma a b c).Ok := by
  unfold fma
  split
  · dsimp only
    split
    · exact ⟨le_refl _, Fl.rnd_zero, pow2_pos _⟩
    · exact ofRat_ok _
  · trivial
  · trivial
  · exact add_ok _ _

theorem mul_neg_left (a b : Fl) : mul (neg a) b = neg (mul a b) := by
  cases a with
  | nan => rfl
  | inf s =>
    cases b with
    | nan => rfl
    | inf t => simp [mul, neg]
    | num t n => simp only [mul, neg]; split <;> simp
  | num s m =>
    cases b with
    | nan => rfl
    | inf t => simp only [mul, neg]; split <;> simp
    | num t n => simp only [mul, neg, round]; split <;> simp

theorem mulSub_eq (f : Bool) (c a b : Fl) : mulSub f c a b = mulAdd f c (neg a) b := by
  unfold mulSub mulAdd sub
  rw [mul_neg_left]

end Fl

namespace Fused
open FilterAccuracy PidAccuracy FilterOrder

/-- A number plus a gain times a difference, with one rounding or two. -/
theorem mulAdd_close (f : Bool) {c k a b : Fl} {C K X : Rat} (hc : Good c C) (hk : Good k K) (ha : Good a X) (hb : Good b X) (hX : X ≤ pow2 120) (hG : 2 * K * X ≤ pow2 120)
    (hC : C ≤ 9 / 4 * pow2 120) :
    (mulAdd f c k (Fl.sub a b)).fin = true ∧ (mulAdd f c k (Fl.sub a b)).Ok ∧
      |(mulAdd f c k (Fl.sub a b)).val - (c.val + k.val * (a.val - b.val))| ≤ (C + 3252 / 1000 * (2 * K * X)) / 2 ^ 24 + 1001 / 1000 * pow2 (-150) ∧
      |k.val * (a.val - b.val)| ≤ 2 * K * X := by
  have ep := pow2_pos (-150)
  have esmall : pow2 (-150) ≤ pow2 119 := (pow2_lt (by norm_num)).le
  have ebig : pow2 120 = 2 * pow2 119 := by rw [← pow2_succ]; norm_num
  have e121 : pow2 121 = 2 * pow2 120 := by rw [← pow2_succ]; norm_num
  have e122 : pow2 122 = 2 * pow2 121 := by rw [← pow2_succ]; norm_num
  have p120 := pow2_pos 120
  cases f
  · obtain ⟨m1, m2, m3, m4⟩ := product_close hk ha hb hX hG
    have G0 : 0 ≤ 2 * K * X := (abs_nonneg _).trans m4
    have C0 : 0 ≤ C := (abs_nonneg _).trans hc.2.2
    have ms := abs_sub_abs_le_abs_sub (Fl.mul k (Fl.sub a b)).val (k.val * (a.val - b.val))
    have cs := abs_add_le c.val (Fl.mul k (Fl.sub a b)).val
    have c3 := hc.2.2
    simp only [mulAdd, Bool.false_eq_true, if_false]
    generalize 2 * K * X = G at *
    have sz : |c.val + (Fl.mul k (Fl.sub a b)).val| ≤ C + 5 / 4 * G + pow2 (-150) := by linarith
    obtain ⟨a1, a2⟩ := PidAccuracy.add_close hc.1 hc.2.1 m1 m2 (by linarith)
    refine ⟨a1, add_ok _ _, ?_, m4⟩
    have a4 : |c.val + (Fl.mul k (Fl.sub a b)).val| / 2 ^ 24 ≤ (C + 5 / 4 * G + pow2 (-150)) / 2 ^ 24 := div_le_div_of_nonneg_right sz (by norm_num)
    replace a2 := a2.trans a4
    rw [abs_le] at a2 m3 ⊢
    constructor <;> linarith
  · obtain ⟨k1, k2, k3⟩ := hk
    obtain ⟨a1, a2, a3⟩ := ha
    obtain ⟨b1, b2, b3⟩ := hb
    obtain ⟨c1, c2, c3⟩ := hc
    have C0 : 0 ≤ C := (abs_nonneg _).trans c3
    have hd : |a.val - b.val| ≤ 2 * X := by have := abs_sub a.val b.val; linarith
    obtain ⟨d1, d2⟩ := sub_close a1 a2 b1 b2 (by linarith)
    generalize hdd : Fl.sub a b = d at *
    have dok : d.Ok := hdd ▸ sub_ok a b
    have hkd : |k.val * (a.val - b.val)| ≤ 2 * K * X := by
      rw [abs_mul]
      calc |k.val| * |a.val - b.val| ≤ K * (2 * X) := mul_le_mul k3 hd (abs_nonneg _) ((abs_nonneg _).trans k3)
        _ = 2 * K * X := by ring
    have hq : |k.val * d.val - k.val * (a.val - b.val)| ≤ 2 * K * X / 2 ^ 24 := by
      rw [← mul_sub, abs_mul]
      calc |k.val| * |d.val - (a.val - b.val)| ≤ |k.val| * (|a.val - b.val| / 2 ^ 24) := mul_le_mul_of_nonneg_left d2 (abs_nonneg _)
        _ = |k.val * (a.val - b.val)| / 2 ^ 24 := by rw [abs_mul]; ring
        _ ≤ _ := by linarith
    have h0 : 0 ≤ 2 * K * X := (abs_nonneg _).trans hkd
    generalize 2 * K * X = G at *
    have hsz : |k.val * d.val| ≤ G + G / 2 ^ 24 := by
      have := abs_sub_abs_le_abs_sub (k.val * d.val) (k.val * (a.val - b.val)); linarith
    have hs : |k.val * d.val + c.val| ≤ C + 5 / 4 * G := by
      have := abs_add_le (k.val * d.val) c.val; linarith
    have l : pow2 122 < pow2 128 := pow2_lt (by norm_num)
    have v := fma_val k1 d1 c1 ((rnd_bound (k := 122) (by norm_num) (by linarith)).trans_lt l)
    have hr := rnd_err_all (k.val * d.val + c.val)
    have hr4 : |k.val * d.val + c.val| / 2 ^ 24 ≤ (C + 5 / 4 * G) / 2 ^ 24 := div_le_div_of_nonneg_right hs (by norm_num)
    simp only [mulAdd, if_true]
    refine ⟨v.1, fma_ok k2 dok, ?_, hkd⟩
    rw [v.2]
    rw [abs_le] at hr hq ⊢
    constructor <;> linarith

/-- The same with a difference. -/
theorem mulSub_close (f : Bool) {c k a b : Fl} {C K X : Rat} (hc : Good c C) (hk : Good k K) (ha : Good a X) (hb : Good b X) (hX : X ≤ pow2 120) (hG : 2 * K * X ≤ pow2 120)
    (hC : C ≤ 9 / 4 * pow2 120) :
    (mulSub f c k (Fl.sub a b)).fin = true ∧ (mulSub f c k (Fl.sub a b)).Ok ∧
      |(mulSub f c k (Fl.sub a b)).val - (c.val - k.val * (a.val - b.val))| ≤ (C + 3252 / 1000 * (2 * K * X)) / 2 ^ 24 + 1001 / 1000 * pow2 (-150) ∧
      |k.val * (a.val - b.val)| ≤ 2 * K * X := by
  have hk' : Good (neg k) K := ⟨by rw [(neg_val k).2]; exact hk.1, neg_ok hk.2.1, by rw [(neg_val k).1, abs_neg]; exact hk.2.2⟩
  obtain ⟨h1, h2, h3, h4⟩ := mulAdd_close f hc hk' ha hb hX hG hC
  rw [mulSub_eq]
  rw [(neg_val k).1, neg_mul] at h3 h4
  rw [abs_neg] at h4
  exact ⟨h1, h2, by rwa [← sub_eq_add_neg] at h3, h4⟩

/-- A computation with any places contracted is as close to the exact one as without contraction. -/
theorem step_close {X K L e e' : Rat} {s : Pid Fl} {t : Pid Rat} (fu : Fuse) (h : Near X K L e e' s t) (hX : X ≤ pow2 120) (hG : 2 * K * X ≤ pow2 120)
    (hL : L ≤ pow2 120) (now : Int) : Near X K L (e + stepError X K L) (e + 2 * stepError X K L) (s.computeF fu now) (t.compute now) := by
  obtain ⟨hkp, hki, hkd, hsp, hin, hlr, hlo, hhi, hord, hcum, ⟨t1, t2, t3, t4, t5, t6, t7, t8, t9, t10, t11⟩, hint, hof, hout⟩ := h
  have h148 : pow2 (-148) = 4 * pow2 (-150) := by
    rw [show (-148 : Int) = -150 + 1 + 1 by norm_num, pow2_succ, pow2_succ]; ring
  have ep := pow2_pos (-150)
  have ebig : pow2 120 = 2 ^ 20 * pow2 100 := by
    have : ∀ n : Nat, pow2 (100 + n) = 2 ^ n * pow2 100 := by
      intro n
      induction n with
      | zero => simp
      | succ n ih => rw [show (100 : Int) + ((n + 1 : Nat) : Int) = 100 + (n : Int) + 1 by push_cast; ring, pow2_succ, ih]; ring
    simpa using this 20
  have esmall : pow2 (-150) ≤ pow2 100 := (pow2_lt (by norm_num)).le
  have e121 : pow2 121 = 2 * pow2 120 := by rw [← pow2_succ]; norm_num
  have e122 : pow2 122 = 2 * pow2 121 := by rw [← pow2_succ]; norm_num
  have L0 : 0 ≤ L := (abs_nonneg _).trans hlo.2.2
  have hGG : 16 * (K * X) = 8 * (2 * K * X) := by ring
  simp only [stepError, hGG, h148]
  obtain ⟨i1, i2, i3, i4⟩ := mulAdd_close fu.integral hcum hki hsp hin hX hG (by linarith)
  have G0 : 0 ≤ 2 * K * X := (abs_nonneg _).trans i4
  have bound : ∀ {c : Fl} {v : Rat}, |c.val - v| ≤ (L + 3252 / 1000 * (2 * K * X)) / 2 ^ 24 + 1001 / 1000 * pow2 (-150) → |v| ≤ L + 2 * K * X →
      |c.val| ≤ 11 / 10 * L + 11 / 10 * (2 * K * X) + 2 * pow2 (-150) := by
    intro c v h1 h2
    have := abs_sub_abs_le_abs_sub c.val v
    linarith
  -- the integral
  have hc : ∃ c : Fl, c.fin = true ∧ c.Ok ∧ |c.val - (t.cumulative + t.ki * (t.setpoint - t.input) - (cond s.onMeasurement t.kp 0) * (t.input - t.lastReading))| ≤
        e + ((3 * L + 8 * (2 * K * X)) / 2 ^ 24 + 4 * pow2 (-150)) ∧
      (s.computeF fu now).cumulative = clamp s.lo s.hi c := by
    have c3 := hcum.2.2
    have cs := abs_add_le s.cumulative.val (s.ki.val * (s.setpoint.val - s.input.val))
    have sz := bound i3 (by linarith)
    cases hm : s.onMeasurement
    · refine ⟨mulAdd fu.integral s.cumulative s.ki (Fl.sub s.setpoint s.input), i1, i2, ?_, ?_⟩
      · simp only [t2, t4, t5, cond_false, zero_mul, sub_zero]
        rw [abs_le] at i3 hint ⊢
        constructor <;> linarith
      · simp only [computeF, hm]; rfl
    · obtain ⟨b1, b2, b3, b4⟩ := mulSub_close fu.measurement ⟨i1, i2, sz⟩ hkp hin hlr hX hG (by linarith)
      refine ⟨_, b1, b2, ?_, ?_⟩
      · simp only [t1, t2, t4, t5, t6, cond_true]
        rw [abs_le] at i3 b3 hint ⊢
        constructor <;> linarith
      · simp only [computeF, hm]; rfl
  obtain ⟨c, c1, c2, c3, c4⟩ := hc
  have k := clamp_val hlo.1 hhi.1 c1
  have kL : |(clamp s.lo s.hi c).val| ≤ L := by rw [k.2]; exact clamp_size hord hlo.2.2 hhi.2.2
  have kok := clamp_ok hlo.2.1 hhi.2.1 c2
  have kerr := clamp_lipschitz hord c3
  rw [← k.2] at kerr
  have tc : (t.compute now).cumulative = clamp s.lo.val s.hi.val
      (t.cumulative + t.ki * (t.setpoint - t.input) - (cond s.onMeasurement t.kp 0) * (t.input - t.lastReading)) := by
    rw [compute_rat, t7, t8, t11]
  -- the output
  obtain ⟨q1, q2, q3, q4⟩ := mulSub_close fu.derivative ⟨k.1, kok, kL⟩ hkd hin hlr hX hG (by linarith)
  have qs := abs_sub (clamp s.lo s.hi c).val (s.kd.val * (s.input.val - s.lastReading.val))
  have qz := bound q3 (by linarith)
  have ho : ∃ o : Fl, o.fin = true ∧ |o.val - ((cond s.onMeasurement 0 t.kp) * (t.setpoint - t.input) + ((t.compute now).cumulative - t.kd * (t.input - t.lastReading)))| ≤
        e + 2 * ((3 * L + 8 * (2 * K * X)) / 2 ^ 24 + 4 * pow2 (-150)) ∧
      (s.computeF fu now).output = clamp s.lo s.hi o := by
    cases hm : s.onMeasurement
    · obtain ⟨o1, o2, o3, o4⟩ := mulAdd_close fu.proportional ⟨q1, q2, qz⟩ hkp hsp hin hX hG (by linarith)
      refine ⟨_, o1, ?_, ?_⟩
      · rw [tc]
        simp only [t1, t2, t3, t4, t5, t6, hm, cond_false] at kerr ⊢
        generalize clamp s.lo.val s.hi.val _ = cx at *
        rw [abs_le] at o3 q3 kerr ⊢
        constructor <;> linarith
      · have e : (s.computeF fu now).output = clamp s.lo s.hi (if fu.proportional then Fl.fma s.kp (Fl.sub s.setpoint s.input)
            (mulSub fu.derivative (s.computeF fu now).cumulative s.kd (Fl.sub s.input s.lastReading)) else Fl.add (Fl.mul s.kp (Fl.sub s.setpoint s.input))
            (mulSub fu.derivative (s.computeF fu now).cumulative s.kd (Fl.sub s.input s.lastReading))) := by
          simp only [computeF, hm]; rfl
        rw [e, c4]
        unfold mulAdd
        rw [add_comm_fl]
    · have z : (fzero : Fl) = .num false 0 := by decide +kernel
      have zv : (fzero : Fl).val = 0 := by rw [z]; rfl
      obtain ⟨o1, o2⟩ := PidAccuracy.add_close (x := fzero) (by rw [z]; rfl) (by rw [z]; exact ⟨le_refl _, Fl.rnd_zero, pow2_pos _⟩) q1 q2 (by rw [zv, zero_add]; linarith)
      refine ⟨_, o1, ?_, ?_⟩
      · rw [tc]
        rw [zv, zero_add] at o2
        have o4 := o2.trans (div_le_div_of_nonneg_right qz (by norm_num : (0:Rat) ≤ 2 ^ 24))
        simp only [t1, t2, t3, t4, t5, t6, hm, cond_true, zero_mul, zero_add] at kerr ⊢
        generalize clamp s.lo.val s.hi.val _ = cx at *
        rw [abs_le] at o4 q3 kerr ⊢
        constructor <;> linarith
      · rw [← c4]; simp only [computeF, hm]; rfl
  obtain ⟨o, o1, o2, o3⟩ := ho
  have ko := clamp_val hlo.1 hhi.1 o1
  have hto : (t.compute now).output = clamp s.lo.val s.hi.val
      ((cond s.onMeasurement 0 t.kp) * (t.setpoint - t.input) + ((t.compute now).cumulative - t.kd * (t.input - t.lastReading))) := by
    rw [compute_rat, t7, t8, t11]
  refine ⟨hkp, hki, hkd, hsp, hin, hin, hlo, hhi, hord, ?_, ⟨t1, t2, t3, t4, t5, t5, t7, t8, rfl, t10, t11⟩, ?_, ?_, ?_⟩
  · rw [c4]; exact ⟨k.1, kok, kL⟩
  · rw [c4, tc]; exact kerr
  · rw [o3]; exact ko.1
  · rw [o3, hto, ko.2]; exact clamp_lipschitz hord o2

/-- What a reading does: it is used or not, depending on the times only. -/
theorem newReadingF_iff {fu : Fuse} {s : Pid Fl} {v : Fl} {now : Int} {f : Bool} {s' : Pid Fl} (h : PID.newReadingF fu s v now = .ok (f, s')) :
    PID.newReading s v now = .ok (f, if f then ({ s with input := v } : Pid Fl).compute now else { s with input := v }) ∧
      s' = if f then ({ s with input := v } : Pid Fl).computeF fu now else { s with input := v } := by
  simp only [PID.newReadingF, updateF, PID.newReading, update] at h ⊢
  obtain ⟨d, hd, h⟩ := res_bind h
  obtain ⟨c, hc, h⟩ := res_bind h
  rw [hd, res_bind_ok, hc, res_bind_ok]
  cases c <;> cases h <;> exact ⟨rfl, rfl⟩

/-- What `MappedRange` computes, with one rounding less. -/
theorem fused_close {x l h o p : Rat} (hx : rnd x = x) (hl : rnd l = l) (hh : rnd h = h) (ho : rnd o = o) (hp : rnd p = p)
    (hlh : l < h) (h1 : l ≤ x) (h2 : x ≤ h) (hpos : 0 < rnd (h - l)) :
    |rnd (rnd (rnd (x - l) / rnd (h - l)) * rnd (p - o) + o) - (o + (x - l) / (h - l) * (p - o))| ≤
      (6 * |p - o| + max |o| |p|) / 2 ^ 24 + pow2 (-149) := by
  have hη := pow2_pos (-150)
  have hη' : pow2 (-150) ≤ 1 / 2 ^ 24 / 1000 := by decide +kernel
  rw [pow2_150]
  have ea := rnd_diff hx hl
  have eb := rnd_diff hh hl
  have ew := rnd_diff hp ho
  rw [abs_of_nonneg (show 0 ≤ x - l by linarith)] at ea
  rw [abs_of_nonneg (show 0 ≤ h - l by linarith)] at eb
  have hq := quotient_close (A := x - l) (B := h - l) (by linarith) (by linarith) (by linarith) hpos ea eb
  have q0 : 0 ≤ rnd (x - l) / rnd (h - l) := div_nonneg (rnd_nonneg (by linarith)) hpos.le
  have q1 : rnd (x - l) / rnd (h - l) ≤ 1 := by rw [div_le_one hpos]; exact rnd_mono (by linarith)
  have ef := rnd_err_all (rnd (x - l) / rnd (h - l))
  rw [abs_of_nonneg q0] at ef
  have f0 := rnd_nonneg q0
  have f1 : rnd (rnd (x - l) / rnd (h - l)) ≤ 1 := by
    have := rnd_mono q1
    rwa [show rnd 1 = 1 by decide +kernel] at this
  have r0 : 0 ≤ (x - l) / (h - l) := div_nonneg (by linarith) (by linarith)
  have r1 : (x - l) / (h - l) ≤ 1 := by rw [div_le_one (by linarith)]; linarith
  set q := rnd (x - l) / rnd (h - l)
  set f := rnd q
  set r := (x - l) / (h - l)
  set w := rnd (p - o)
  set W := p - o with hW
  have efr : |f - r| ≤ 3003 / 1000 / 2 ^ 24 := by
    rw [abs_le] at ef hq ⊢
    constructor <;> linarith
  have hW0 := abs_nonneg W
  have e2 : |f * w - r * W| ≤ 4003 / 1000 / 2 ^ 24 * |W| := by
    have : f * w - r * W = f * (w - W) + (f - r) * W := by ring
    rw [this]
    refine (abs_add_le _ _).trans ?_
    rw [abs_mul, abs_mul, abs_of_nonneg f0]
    have a1 := mul_le_of_le_one_left (abs_nonneg (w - W)) f1
    have a2 := mul_le_mul_of_nonneg_right efr hW0
    linarith
  have es := rnd_err_all (f * w + o)
  have hM : |o + r * W| ≤ max |o| |p| := by
    have : o + r * W = (1 - r) * o + r * p := by rw [hW]; ring
    rw [this]
    refine (abs_add_le _ _).trans ?_
    rw [abs_mul, abs_mul, abs_of_nonneg r0, abs_of_nonneg (show 0 ≤ 1 - r by linarith)]
    have a1 := mul_le_mul_of_nonneg_left (le_max_left |o| |p|) (show 0 ≤ 1 - r by linarith)
    have a2 := mul_le_mul_of_nonneg_left (le_max_right |o| |p|) r0
    linarith
  have e4 : |f * w + o| ≤ max |o| |p| + 4003 / 1000 / 2 ^ 24 * |W| := by
    have : f * w + o = (o + r * W) + (f * w - r * W) := by ring
    rw [this]
    have := abs_add_le (o + r * W) (f * w - r * W)
    linarith
  have e5 : |rnd (f * w + o) - (o + r * W)| ≤ |rnd (f * w + o) - (f * w + o)| + |f * w - r * W| := by
    have : rnd (f * w + o) - (o + r * W) = (rnd (f * w + o) - (f * w + o)) + (f * w - r * W) := by ring
    rw [this]
    exact abs_add_le _ _
  linarith

/-- What `MappedRange` computes in single precision when contracted. -/
theorem fused_val {c : MapCfg Fl} {x : Fl} (h : ∀ z ∈ [c.inLo, c.inHi, c.outLo, c.outHi], z.fin = true ∧ z.Ok ∧ |z.val| ≤ pow2 125) (hx : x.fin = true) (hlt : c.inLo.val < c.inHi.val)
    (h1 : c.inLo.val ≤ x.val) (h2 : x.val ≤ c.inHi.val) :
    (Fl.fma (Fl.div (Fl.sub x c.inLo) (Fl.sub c.inHi c.inLo)) (Fl.sub c.outHi c.outLo) c.outLo).fin = true ∧
    (Fl.fma (Fl.div (Fl.sub x c.inLo) (Fl.sub c.inHi c.inLo)) (Fl.sub c.outHi c.outLo) c.outLo).val =
      rnd (rnd (rnd (x.val - c.inLo.val) / rnd (c.inHi.val - c.inLo.val)) * rnd (c.outHi.val - c.outLo.val) + c.outLo.val) ∧
    0 < rnd (c.inHi.val - c.inLo.val) := by
  obtain ⟨a1, a2, a3⟩ := h c.inLo (by simp)
  obtain ⟨b1, b2, b3⟩ := h c.inHi (by simp)
  obtain ⟨c1, c2, c3⟩ := h c.outLo (by simp)
  obtain ⟨d1, d2, d3⟩ := h c.outHi (by simp)
  obtain ⟨-, -, hpos⟩ := scale_val h hx hlt h1 h2
  rw [abs_le] at a3 b3 c3 d3
  have e126 : pow2 126 = 2 * pow2 125 := by rw [← pow2_succ]; norm_num
  have e127 : pow2 127 = 2 * pow2 126 := by rw [← pow2_succ]; norm_num
  have p125 := pow2_pos 125
  have l128 : pow2 127 < pow2 128 := pow2_lt (by norm_num)
  have n1 := rnd_bound (q := x.val - c.inLo.val) (k := 126) (by norm_num) (by rw [abs_le]; constructor <;> linarith)
  have m1 := rnd_bound (q := c.inHi.val - c.inLo.val) (k := 126) (by norm_num) (by rw [abs_le]; constructor <;> linarith)
  have w1 := rnd_bound (q := c.outHi.val - c.outLo.val) (k := 126) (by norm_num) (by rw [abs_le]; constructor <;> linarith)
  have n0 : 0 ≤ rnd (x.val - c.inLo.val) := rnd_nonneg (by linarith)
  have u := sub_val hx a1 (by linarith)
  have v := sub_val b1 a1 (by linarith)
  have w := sub_val d1 c1 (by linarith)
  have q0 : 0 ≤ rnd (x.val - c.inLo.val) / rnd (c.inHi.val - c.inLo.val) := div_nonneg n0 hpos.le
  have q1 : rnd (x.val - c.inLo.val) / rnd (c.inHi.val - c.inLo.val) ≤ 1 := by
    rw [div_le_one hpos]
    exact rnd_mono (by linarith)
  have rq0 := rnd_nonneg q0
  have rq1 : rnd (rnd (x.val - c.inLo.val) / rnd (c.inHi.val - c.inLo.val)) ≤ 1 := by
    have := rnd_mono q1
    rwa [show rnd 1 = 1 by decide +kernel] at this
  have one_lt : (1 : Rat) < pow2 128 := by decide +kernel
  have d := div_val u.1 v.1 (sub_ok _ _) (sub_ok _ _) (by rw [v.2]; exact hpos.ne') (by rw [u.2, v.2, abs_of_nonneg rq0]; linarith)
  rw [u.2, v.2] at d
  have t1 : |rnd (rnd (x.val - c.inLo.val) / rnd (c.inHi.val - c.inLo.val)) * rnd (c.outHi.val - c.outLo.val)| ≤ pow2 126 := by
    rw [abs_mul, abs_of_nonneg rq0]
    exact (mul_le_of_le_one_left (abs_nonneg _) rq1).trans w1
  have z := fma_val d.1 w.1 c1 (by
    rw [d.2, w.2]
    refine (rnd_bound (k := 127) (by norm_num) ?_).trans_lt l128
    have := abs_add_le (rnd (rnd (x.val - c.inLo.val) / rnd (c.inHi.val - c.inLo.val)) * rnd (c.outHi.val - c.outLo.val)) c.outLo.val
    have := abs_le.mpr c3
    linarith)
  rw [d.2, w.2] at z
  exact ⟨z.1, z.2, hpos⟩

/-- Where a finite sample is put, and what is computed from it. -/
theorem mapF_ieee (f : Bool) {c : MapCfg Fl} (g1 : c.inLo.fin = true) (g2 : c.inHi.fin = true) (hlt : c.inLo.val < c.inHi.val) (ht : c.throws = false) {x : Fl} (hx : x.fin = true) :
    ∃ z : Fl, z.fin = true ∧ z.val = max c.inLo.val (min c.inHi.val x.val) ∧ (z = x ∨ z = c.inLo ∨ z = c.inHi) ∧
      c.mapF f x = .ok (some (mulAdd f c.outLo (Fl.div (Fl.sub z c.inLo) (Fl.sub c.inHi c.inLo)) (Fl.sub c.outHi c.outLo))) := by
  have l1 : Arith.lt c.inHi c.inLo = false := by
    rw [Bool.eq_false_iff]; intro hc
    have := (lt_iff g2 g1).mp hc
    linarith
  by_cases k1 : x.val < c.inLo.val
  · have e1 : Fl.lt x c.inLo = true := (lt_iff hx g1).mpr k1
    have e1' : Arith.lt x c.inLo = true := e1
    refine ⟨c.inLo, g1, ?_, .inr (.inl rfl), ?_⟩
    · rw [min_eq_right (by linarith), max_eq_left k1.le]
    · simp only [MapCfg.mapF, e1, e1', Bool.true_or, if_true, ht, Bool.false_eq_true, if_false, fclamp, l1, res_bind_ok]
      rfl
  · have e1 : Fl.lt x c.inLo = false := by rw [Bool.eq_false_iff]; intro hc; exact k1 ((lt_iff hx g1).mp hc)
    have e1' : Arith.lt x c.inLo = false := e1
    by_cases k2 : c.inHi.val < x.val
    · have e2 : Fl.lt c.inHi x = true := (lt_iff g2 hx).mpr k2
      have e2' : Arith.lt c.inHi x = true := e2
      refine ⟨c.inHi, g2, ?_, .inr (.inr rfl), ?_⟩
      · rw [min_eq_left k2.le, max_eq_right hlt.le]
      · simp only [MapCfg.mapF, e1, e1', e2, e2', Bool.or_true, if_true, ht, Bool.false_eq_true, if_false, fclamp, l1, res_bind_ok]
        rfl
    · have e2 : Fl.lt c.inHi x = false := by rw [Bool.eq_false_iff]; intro hc; exact k2 ((lt_iff g2 hx).mp hc)
      refine ⟨x, hx, ?_, .inl rfl, ?_⟩
      · rw [min_eq_right (not_lt.mp k2), max_eq_right (not_lt.mp k1)]
      · simp only [MapCfg.mapF, e1, e2, Bool.or_false, Bool.false_eq_true, if_false]
        rfl

end Fused
end Spine
