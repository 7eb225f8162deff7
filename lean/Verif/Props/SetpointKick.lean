import Verif.Props.Retuning
import Verif.Props.PidAccuracy
/-!
# C208: a change of the setpoint acts gradually
-/

namespace Spine
open Pid PidAccuracy F32

namespace PID

/-- Specification: two controllers that agree in everything but the setpoint, the sum and the output. -/
structure Beside (s t : Pid Rat) : Prop where
  kp : t.kp = s.kp
  ki : t.ki = s.ki
  kd : t.kd = s.kd
  time : t.lastTime = s.lastTime
  last : t.lastReading = s.lastReading
  sampling : t.sampling = s.sampling
  lo : t.lo = s.lo
  hi : t.hi = s.hi
  mode : t.onMeasurement = s.onMeasurement

theorem beside_compute {s t : Pid Rat} (h : Beside s t) (hl : s.lo ≤ s.hi) (v : Rat) (now : Int) :
    Beside (({ s with input := v } : Pid Rat).compute now) (({ t with input := v } : Pid Rat).compute now) ∧
    |(({ t with input := v } : Pid Rat).compute now).cumulative - (({ s with input := v } : Pid Rat).compute now).cumulative| ≤
      |t.cumulative - s.cumulative| + |s.ki * (t.setpoint - s.setpoint)| ∧
    |(({ t with input := v } : Pid Rat).compute now).output - (({ s with input := v } : Pid Rat).compute now).output| ≤
      |t.cumulative - s.cumulative| + |s.ki * (t.setpoint - s.setpoint)| + (if s.onMeasurement then 0 else |s.kp * (t.setpoint - s.setpoint)|) := by
  obtain ⟨e1, e2, e3, e4, e5, e6, e7, e8, e9⟩ := h
  obtain ⟨kp, ki, kd, r, i, o, sp, lt, cu, lr, sa, lo, hi, om⟩ := s
  obtain ⟨kp', ki', kd', r', i', o', sp', lt', cu', lr', sa', lo', hi', om'⟩ := t
  simp only at e1 e2 e3 e4 e5 e6 e7 e8 e9 hl
  subst e1 e2 e3 e4 e5 e6 e7 e8 e9
  refine ⟨⟨rfl, rfl, rfl, rfl, rfl, rfl, rfl, rfl, rfl⟩, ?_⟩
  have sum : ∀ a : Rat, |(cu' + ki' * (sp' - v) - a) - (cu + ki' * (sp - v) - a)| ≤ |cu' - cu| + |ki' * (sp' - sp)| := by
    intro a
    rw [show (cu' + ki' * (sp' - v) - a) - (cu + ki' * (sp - v) - a) = (cu' - cu) + ki' * (sp' - sp) by ring]
    exact abs_add_le _ _
  cases om'
  · simp only [compute, Arith.sub, Arith.add, Arith.mul, Bool.false_eq_true, if_false]
    have hc := clamp_lipschitz hl (sum 0)
    simp only [sub_zero] at hc
    refine ⟨hc, clamp_lipschitz hl ?_⟩
    generalize clamp lo' hi' (cu' + ki' * (sp' - v)) = x at hc
    generalize clamp lo' hi' (cu + ki' * (sp - v)) = y at hc
    rw [show kp' * (sp' - v) + (x - kd' * (v - lr')) - (kp' * (sp - v) + (y - kd' * (v - lr'))) = (x - y) + kp' * (sp' - sp) by ring]
    exact (abs_add_le _ _).trans (by linarith)
  · simp only [compute, Arith.sub, Arith.add, Arith.mul, if_true]
    have hc := clamp_lipschitz hl (sum (kp' * (v - lr')))
    refine ⟨hc, clamp_lipschitz hl ?_⟩
    generalize clamp lo' hi' (cu' + ki' * (sp' - v) - kp' * (v - lr')) = x at hc
    generalize clamp lo' hi' (cu + ki' * (sp - v) - kp' * (v - lr')) = y at hc
    rw [show (fzero : Rat) + (x - kd' * (v - lr')) - (fzero + (y - kd' * (v - lr'))) = x - y by ring, add_zero]
    exact hc

theorem beside_reading {s t s' t' : Pid Rat} (h : Beside s t) {v : Rat} {now : Int} {f g : Bool} (h1 : newReading s v now = .ok (f, s')) (h2 : newReading t v now = .ok (g, t')) :
    f = g ∧ (f = true → s' = ({ s with input := v } : Pid Rat).compute now ∧ t' = ({ t with input := v } : Pid Rat).compute now) ∧
      (f = false → s' = { s with input := v } ∧ t' = { t with input := v }) := by
  unfold newReading update at h1 h2
  simp only [h.time, h.sampling] at h2
  obtain ⟨d, hd, h1⟩ := res_bind h1
  rw [hd, res_bind_ok] at h2
  obtain ⟨c, hc, h1⟩ := res_bind h1
  rw [hc, res_bind_ok] at h2
  cases c
  · obtain ⟨rfl, rfl⟩ := Prod.mk.inj (Except.ok.inj h1)
    obtain ⟨rfl, rfl⟩ := Prod.mk.inj (Except.ok.inj h2)
    refine ⟨rfl, nofun, fun _ => ⟨rfl, ?_⟩⟩
    rw [← h.time, ← h.sampling]
  · obtain ⟨rfl, rfl⟩ := Prod.mk.inj (Except.ok.inj h1)
    obtain ⟨rfl, rfl⟩ := Prod.mk.inj (Except.ok.inj h2)
    refine ⟨rfl, fun _ => ⟨rfl, ?_⟩, nofun⟩
    rw [← h.time, ← h.sampling]

theorem beside_readings (rs : List (Int × Rat)) : ∀ {s t s' t' : Pid Rat} {fs gs : List Bool} {D P c o : Rat}, Beside s t → s.lo ≤ s.hi → |s.ki * (t.setpoint - s.setpoint)| = D →
    (if s.onMeasurement then 0 else |s.kp * (t.setpoint - s.setpoint)|) = P → |t.cumulative - s.cumulative| ≤ c → |t.output - s.output| ≤ o → o ≤ c + P → readings s rs = .ok (fs, s') →
    readings t rs = .ok (gs, t') → gs = fs ∧ |t'.cumulative - s'.cumulative| ≤ c + fs.count true * D ∧ |t'.output - s'.output| ≤ c + fs.count true * D + P := by
  induction rs with
  | nil =>
    intro s t s' t' fs gs D P c o _ _ _ _ hc ho hoc h1 h2
    cases h1; cases h2
    simp only [List.count_nil, Nat.cast_zero, zero_mul, add_zero]
    exact ⟨trivial, hc, ho.trans hoc⟩
  | cons r rs ih =>
    intro s t s' t' fs gs D P c o hb hl hD hP hc ho hoc h1 h2
    obtain ⟨now, v⟩ := r
    simp only [readings] at h1 h2
    obtain ⟨⟨f, s1⟩, a1, h1⟩ := res_bind h1
    obtain ⟨⟨fs1, s2⟩, a2, h1⟩ := res_bind h1
    obtain ⟨⟨g, t1⟩, b1, h2⟩ := res_bind h2
    obtain ⟨⟨gs1, t2⟩, b2, h2⟩ := res_bind h2
    cases h1; cases h2
    obtain ⟨rfl, k1, k2⟩ := beside_reading hb a1 b1
    cases f with
    | false =>
      obtain ⟨rfl, rfl⟩ := k2 rfl
      obtain ⟨r1, r2, r3⟩ := ih (s := { s with input := v }) (t := { t with input := v }) ⟨hb.kp, hb.ki, hb.kd, hb.time, hb.last, hb.sampling, hb.lo, hb.hi, hb.mode⟩ hl hD hP hc ho hoc a2 b2
      refine ⟨by rw [r1], ?_, ?_⟩
      · simpa using r2
      · simpa using r3
    | true =>
      obtain ⟨rfl, rfl⟩ := k1 rfl
      obtain ⟨q1, q2, q3⟩ := beside_compute hb hl v now
      rw [hD] at q2 q3
      rw [hP] at q3
      obtain ⟨r1, r2, r3⟩ := ih (s := ({ s with input := v } : Pid Rat).compute now) (t := ({ t with input := v } : Pid Rat).compute now) (c := c + D) (o := c + D + P) q1 hl hD hP
        (q2.trans (by linarith)) (q3.trans (by linarith)) le_rfl a2 b2
      rw [List.count_cons_self]
      push_cast
      exact ⟨by rw [r1], by linarith, by linarith⟩

/-- **C208.** In exact arithmetic: give a controller the setpoint `w`, and compare it with one that keeps its setpoint. After any readings, `n` of which led to a computation, the outputs differ
by no more than `n` times the integral gain times the change, plus the proportional gain times the change, the latter only with the proportional part on the error. The derivative gain has
no part in it. -/
theorem C208_setpoint {s s' t' : Pid Rat} {w : Rat} (hl : s.lo ≤ s.hi) {rs : List (Int × Rat)} {fs gs : List Bool} (h1 : readings s rs = .ok (fs, s'))
    (h2 : readings { s with setpoint := w } rs = .ok (gs, t')) : gs = fs ∧
    |t'.output - s'.output| ≤ fs.count true * |s.ki * (w - s.setpoint)| + (if s.onMeasurement then 0 else |s.kp * (w - s.setpoint)|) := by
  have hP : (0 : Rat) ≤ (if s.onMeasurement then 0 else |s.kp * (w - s.setpoint)|) := by split <;> [rfl; exact abs_nonneg _]
  obtain ⟨r1, -, r3⟩ := beside_readings rs (s := s) (t := { s with setpoint := w }) (c := 0) (o := 0) ⟨rfl, rfl, rfl, rfl, rfl, rfl, rfl, rfl, rfl⟩ hl rfl rfl (by simp) (by simp)
    (by rw [zero_add]; exact hP) h1 h2
  rw [zero_add] at r3
  exact ⟨r1, r3⟩

/-- **C208.** In single precision: as far as the rounding errors allow, which are at most those of C138 for each of the two controllers. -/
theorem C208_float {s s' t' : Pid Fl} {w : Fl} {X K L : Rat} (hk : ∀ z ∈ [s.kp, s.ki, s.kd], Good z K) (hx : ∀ z ∈ [s.setpoint, s.input, s.lastReading], Good z X) (hw : Good w X)
    (hl : ∀ z ∈ [s.lo, s.hi, s.cumulative], Good z L) (hord : Fl.le s.lo s.hi = true) (ho : s.output.fin = true)
    (hX : X ≤ pow2 120) (hG : 2 * K * X ≤ pow2 120) (hL : L ≤ pow2 120) {rs : List (Int × Fl)} (hrs : ∀ r ∈ rs, Good r.2 X) {fs gs : List Bool}
    (h1 : readings s rs = .ok (fs, s')) (h2 : readings { s with setpoint := w } rs = .ok (gs, t')) : gs = fs ∧
    |t'.output.val - s'.output.val| ≤ fs.count true * |s.ki.val * (w.val - s.setpoint.val)| + (if s.onMeasurement then 0 else |s.kp.val * (w.val - s.setpoint.val)|) +
      2 * ((fs.count true + 1) * ((3 * L + 16 * (K * X)) / 2 ^ 24 + pow2 (-148))) := by
  obtain ⟨u, a1, -, -, -, a2⟩ := C138_drift hk hx hl hord ho hX hG hL hrs h1
  obtain ⟨u', b1, -, -, -, b2⟩ := C138_drift (s := { s with setpoint := w }) hk
    (by simp only [List.mem_cons, List.not_mem_nil, or_false, forall_eq_or_imp, forall_eq] at hx ⊢; exact ⟨hw, hx.2.1, hx.2.2⟩) hl hord ho hX hG hL hrs h2
  have hl' : (exact s).lo ≤ (exact s).hi := (Fl.le_iff (hl s.lo (by simp)).1 (hl s.hi (by simp)).1).mp hord
  obtain ⟨r1, r2⟩ := C208_setpoint (s := exact s) (w := w.val) hl' a1 b1
  subst r1
  refine ⟨rfl, ?_⟩
  have e : t'.output.val - s'.output.val = (u'.output - u.output) + (t'.output.val - u'.output) - (s'.output.val - u.output) := by ring
  rw [e]
  have k1 := abs_sub ((u'.output - u.output) + (t'.output.val - u'.output)) (s'.output.val - u.output)
  have k2 := abs_add_le (u'.output - u.output) (t'.output.val - u'.output)
  have r2' : |u'.output - u.output| ≤ gs.count true * |s.ki.val * (w.val - s.setpoint.val)| + (if s.onMeasurement then 0 else |s.kp.val * (w.val - s.setpoint.val)|) := r2
  linarith

/-! ## Concrete cases -/

/-- A setpoint of 40 instead of 20, for a controller at rest with an output of 50, with gains of 3, 1 and 1000: with the proportional part on the measurement the outputs are 70, 90;
on the error they are 130, 150. -/
def afterChange (onMeasurement : Bool) : Res (List Rat) := do
  let s : Pid Rat := ⟨3, 1, 1000, false, 20, 50, 40, 0, 50, 20, 100, 0, 255, onMeasurement⟩
  let (_, s1) ← readings s [(100, 20)]
  let (_, s2) ← readings s1 [(150, 20), (200, 20)]
  return [s1.output, s2.output]

example : afterChange true = .ok [70, 90] ∧ afterChange false = .ok [130, 150] := by decide +kernel

/-- The bound is reached: 80 after the first computation is once 1 · 20 and 3 · 20. -/
example : |(130 : Rat) - 50| = 1 * |1 * (40 - 20)| + |3 * (40 - 20)| := by decide +kernel

end PID

end Spine
