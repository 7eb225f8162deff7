import Verif.Props.PidUnits
import Mathlib.Algebra.Order.Group.MinMax
/-!
# C187: controllers side by side do not drift apart
-/

namespace Spine

theorem clamp_minmax {lo hi : Rat} (h : lo ≤ hi) (x : Rat) : Pid.clamp lo hi x = min hi (max lo x) := by
  simp only [Pid.clamp, Arith.lt, decide_eq_true_eq]
  by_cases h1 : hi < x
  · rw [if_pos h1, max_eq_right (h.trans h1.le), min_eq_left h1.le]
  · rw [if_neg h1]
    by_cases h2 : x < lo
    · rw [if_pos h2, max_eq_left h2.le, min_eq_right h]
    · rw [if_neg h2, max_eq_right (not_lt.mp h2), min_eq_right (not_lt.mp h1)]

theorem clamp_near {lo hi : Rat} (h : lo ≤ hi) (x y : Rat) : |Pid.clamp lo hi x - Pid.clamp lo hi y| ≤ |x - y| := by
  rw [clamp_minmax h, clamp_minmax h]
  have h1 := abs_min_sub_min_le_max hi (max lo x) hi (max lo y)
  have h2 := abs_max_sub_max_le_max lo x lo y
  simp only [sub_self, abs_zero] at h1 h2
  rw [max_eq_right (abs_nonneg (max lo x - max lo y))] at h1
  rw [max_eq_right (abs_nonneg (x - y))] at h2
  exact h1.trans h2

/-- Two controllers that differ in nothing but the integral part and the response, and in these by no more than `d`. -/
structure Pid.Near (d : Rat) (s t : Pid Rat) : Prop where
  same : t = { s with cumulative := t.cumulative, output := t.output }
  limits : s.lo ≤ s.hi
  cumulative : |s.cumulative - t.cumulative| ≤ d
  output : |s.output - t.output| ≤ d

namespace Pid.Near

variable {d : Rat} {s t : Pid Rat}

theorem compute (h : Near d s t) (now : Int) : Near d (s.compute now) (t.compute now) := by
  obtain ⟨h1, h2, h3, h4⟩ := h
  have hc : |(s.compute now).cumulative - (t.compute now).cumulative| ≤ d := by
    rw [h1]
    simp only [Pid.compute]
    refine (clamp_near h2 _ _).trans (le_trans (le_of_eq (congrArg _ ?_)) h3)
    split
    · change s.cumulative + s.ki * (s.setpoint - s.input) - s.kp * (s.input - s.lastReading) - (t.cumulative + s.ki * (s.setpoint - s.input) - s.kp * (s.input - s.lastReading)) = _
      ring
    · change s.cumulative + s.ki * (s.setpoint - s.input) - (t.cumulative + s.ki * (s.setpoint - s.input)) = _
      ring
  refine ⟨by rw [h1]; rfl, h2, hc, le_trans ?_ hc⟩
  rw [h1]
  refine (clamp_near h2 _ _).trans (le_of_eq (congrArg _ ?_))
  change _ + (Pid.cumulative (s.compute now) - s.kd * (s.input - s.lastReading)) - (_ + (Pid.cumulative ({ s with cumulative := t.cumulative, output := t.output }.compute now) - s.kd * (s.input - s.lastReading))) = _
  ring

theorem update (h : Near d s t) (now : Int) : (∃ e, s.update now = .error e ∧ t.update now = .error e) ∨
    ∃ f s' t', s.update now = .ok (f, s') ∧ t.update now = .ok (f, t') ∧ Near d s' t' := by
  have e1 : t.lastTime = s.lastTime := by rw [h.same]
  have e2 : t.sampling = s.sampling := by rw [h.same]
  simp only [Pid.update, e1, e2]
  cases msSub now s.lastTime with
  | error e => exact .inl ⟨e, rfl, rfl⟩
  | ok x =>
    simp only [res_bind_ok]
    cases msGe x s.sampling with
    | error e => exact .inl ⟨e, rfl, rfl⟩
    | ok f =>
      simp only [res_bind_ok]
      cases f with
      | true => exact .inr ⟨true, _, _, rfl, rfl, h.compute now⟩
      | false => exact .inr ⟨false, _, _, rfl, rfl, h⟩

theorem tunings (h : Near d s t) (b : Build) (kp ki kd : Rat) (m : Bool) : (∃ e, s.setTunings b kp ki kd m = .error e ∧ t.setTunings b kp ki kd m = .error e) ∨
    ∃ s' t', s.setTunings b kp ki kd m = .ok s' ∧ t.setTunings b kp ki kd m = .ok t' ∧ Near d s' t' := by
  have e2 : t.sampling = s.sampling := by rw [h.same]
  have e3 : t.reverse = s.reverse := by rw [h.same]
  simp only [Pid.setTunings, e2, e3]
  cases spnAssert b (Arith.le fzero kp && Arith.le fzero ki && Arith.le fzero kd) with
  | error e => exact .inl ⟨e, rfl, rfl⟩
  | ok _ =>
    simp only [res_bind_ok]
    cases msGt s.sampling 0 with
    | error e => exact .inl ⟨e, rfl, rfl⟩
    | ok f =>
      simp only [res_bind_ok]
      cases spnAssert b f with
      | error e => exact .inl ⟨e, rfl, rfl⟩
      | ok _ =>
        simp only [res_bind_ok]
        refine .inr ⟨_, _, rfl, rfl, ?_⟩
        rw [h.same]
        cases s.reverse <;> exact ⟨rfl, h.limits, h.cumulative, h.output⟩

theorem sampling (h : Near d s t) (n : Int) : (∃ e, s.setSampling n = .error e ∧ t.setSampling n = .error e) ∨
    ∃ s' t', s.setSampling n = .ok s' ∧ t.setSampling n = .ok t' ∧ Near d s' t' := by
  have e2 : t.sampling = s.sampling := by rw [h.same]
  simp only [Pid.setSampling, e2]
  cases msGt n 0 with
  | error e => exact .inl ⟨e, rfl, rfl⟩
  | ok f =>
    cases f with
    | false => exact .inr ⟨_, _, rfl, rfl, h⟩
    | true =>
      simp only [res_bind_ok, if_true]
      by_cases hz : s.sampling = 0
      · simp only [hz, if_true]; exact .inl ⟨_, rfl, rfl⟩
      · simp only [hz, if_false]
        refine .inr ⟨_, _, rfl, rfl, ?_⟩
        rw [h.same]
        exact ⟨rfl, h.limits, h.cumulative, h.output⟩

theorem setLimits (h : Near d s t) (lo hi : Rat) : Near d (s.setLimits lo hi) (t.setLimits lo hi) := by
  unfold Pid.setLimits
  by_cases hl : Arith.le hi lo = true
  · simp only [hl, if_true]; exact h
  · have hl' : lo ≤ hi := (not_le.mp fun q => hl (decide_eq_true q)).le
    simp only [hl, Bool.false_eq_true, if_false]
    refine ⟨?_, hl', (clamp_near hl' _ _).trans h.cumulative, (clamp_near hl' _ _).trans h.output⟩
    rw [h.same]

theorem start (h : Near d s t) : Near d s.start t.start := by
  have e1 : t.lo = s.lo := by rw [h.same]
  have e2 : t.hi = s.hi := by rw [h.same]
  unfold Pid.start
  refine ⟨?_, h.limits, ?_, h.output⟩
  · rw [h.same]
  · simp only [e1, e2]
    exact (clamp_near h.limits _ _).trans h.output

theorem exec (h : Near d s t) (b : Build) (cfg : PidConfig Rat) (o : PID.Op Rat) : (∃ e, PID.exec cfg b s o = .error e ∧ PID.exec cfg b t o = .error e) ∨
    ∃ s' t', PID.exec cfg b s o = .ok s' ∧ PID.exec cfg b t o = .ok t' ∧ Near d s' t' := by
  cases o with
  | start =>
    simp only [PID.exec, PID.start]
    rcases (h.setLimits cfg.lower cfg.upper).sampling cfg.interval with ⟨e, e1, e2⟩ | ⟨s', t', e1, e2, h'⟩
    · rw [e1, e2]; exact .inl ⟨e, rfl, rfl⟩
    · rw [e1, e2]; exact .inr ⟨_, _, rfl, rfl, h'.start⟩
  | reading v now =>
    have h' : Near d { s with input := v } { t with input := v } := ⟨by rw [h.same], h.limits, h.cumulative, h.output⟩
    simp only [PID.exec, PID.newReading]
    rcases h'.update now with ⟨e, e1, e2⟩ | ⟨f, s', t', e1, e2, h''⟩
    · rw [e1, e2]; exact .inl ⟨e, rfl, rfl⟩
    · rw [e1, e2]; exact .inr ⟨_, _, rfl, rfl, h''⟩
  | setpoint v => exact .inr ⟨_, _, rfl, rfl, ⟨by rw [h.same], h.limits, h.cumulative, h.output⟩⟩
  | tunings kp ki kd m => exact h.tunings b kp ki kd m

theorem run (b : Build) (cfg : PidConfig Rat) (ops : List (PID.Op Rat)) : ∀ {s t : Pid Rat}, Near d s t → (∃ e, PID.run cfg b s ops = .error e ∧ PID.run cfg b t ops = .error e) ∨
    ∃ s' t', PID.run cfg b s ops = .ok s' ∧ PID.run cfg b t ops = .ok t' ∧ Near d s' t' := by
  induction ops with
  | nil => intro s t h; exact .inr ⟨s, t, rfl, rfl, h⟩
  | cons o ops ih =>
    intro s t h
    simp only [PID.run]
    rcases h.exec b cfg o with ⟨e, e1, e2⟩ | ⟨s', t', e1, e2, h'⟩
    · rw [e1, e2]; exact .inl ⟨e, rfl, rfl⟩
    · rw [e1, e2]; exact ih h'

end Pid.Near

/-- The settings of two controllers are the same: gains, proportionality, direction, sampling time, limits and setpoint. -/
def Pid.SameSettings (s t : Pid Rat) : Prop :=
  s.kp = t.kp ∧ s.ki = t.ki ∧ s.kd = t.kd ∧ s.onMeasurement = t.onMeasurement ∧ s.reverse = t.reverse ∧ s.sampling = t.sampling ∧ s.lo = t.lo ∧ s.hi = t.hi ∧ s.setpoint = t.setpoint

instance (s t : Pid Rat) : Decidable (s.SameSettings t) := by unfold Pid.SameSettings; infer_instance

theorem create_limits {cfg : PidConfig Rat} {b : Build} {now : Int} {s : Pid Rat} (h : PID.create cfg b now = .ok s) : s.lo ≤ s.hi := by
  obtain ⟨s1, h1, h2⟩ := res_bind (show (Pid.create b now fzero fzero fzero cfg.kp cfg.ki cfg.kd true cfg.reverse >>= fun s => (spnAssert b (decide (cfg.interval > 0)) >>= fun _ => .ok s)) = .ok s from h)
  obtain ⟨_, _, h3⟩ := res_bind h2
  obtain rfl := Except.ok.inj h3
  obtain ⟨s2, h4, h5⟩ := res_bind h1
  obtain ⟨n, _, h6⟩ := res_bind h5
  obtain rfl := Except.ok.inj h6
  obtain ⟨_, _, h7⟩ := res_bind h4
  obtain ⟨_, _, h8⟩ := res_bind h7
  obtain ⟨_, _, h9⟩ := res_bind h8
  obtain rfl := Except.ok.inj h9
  have h0 : (fzero : Rat) ≤ Arith.ofRat 255 := by decide +kernel
  simp only [Pid.setDirection, Pid.negate]
  split_ifs <;> exact h0

theorem run_limits {cfg : PidConfig Rat} {b : Build} {s s' : Pid Rat} {ops : List (PID.Op Rat)} (hl : s.lo ≤ s.hi) (h : PID.run cfg b s ops = .ok s') : s'.lo ≤ s'.hi := by
  have hn : Pid.Near 0 s s := ⟨rfl, hl, by simp, by simp⟩
  rcases hn.run b cfg ops with ⟨e, e1, -⟩ | ⟨s1, t1, e1, -, h1⟩
  · rw [h] at e1; cases e1
  · rw [h] at e1; cases e1; exact h1.limits

/-- A reading that two controllers of the same settings compute with makes them the same but for the integral part and the response. -/
theorem joins {s t s1 t1 : Pid Rat} (hst : s.SameSettings t) {v : Rat} {now : Int} (hl1 : PID.newReading s v now = .ok (true, s1)) (hl2 : PID.newReading t v now = .ok (true, t1)) :
    t1 = { s1 with cumulative := t1.cumulative, output := t1.output } ∧ s1.lo = s.lo ∧ s1.hi = s.hi := by
  have get : ∀ {s s1 : Pid Rat}, PID.newReading s v now = .ok (true, s1) → s1 = { s with input := v }.compute now := by
    intro s s1 h
    obtain ⟨x, -, h2⟩ := res_bind h
    obtain ⟨f, -, h3⟩ := res_bind h2
    cases f with
    | true => exact (Prod.mk.inj (Except.ok.inj h3)).2.symm
    | false => cases (Prod.mk.inj (Except.ok.inj h3)).1
  obtain rfl := get hl1
  obtain rfl := get hl2
  obtain ⟨a1, a2, a3, a4, a5, a6, a7, a8, a9⟩ := hst
  obtain ⟨s1, s2, s3, s4, s5, s6, s7, s8, s9, s10, s11, s12, s13, s14⟩ := s
  obtain ⟨t1, t2, t3, t4, t5, t6, t7, t8, t9, t10, t11, t12, t13, t14⟩ := t
  simp only at a1 a2 a3 a4 a5 a6 a7 a8 a9
  subst a1 a2 a3 a4 a5 a6 a7 a8 a9
  exact ⟨rfl, rfl, rfl⟩

/-- **C187** in exact arithmetic: take a controller with any history, another one that has the same settings, and a reading that both compute with. From then on, whatever is done to both of
them, they compute at the same calls, fail alike, and their responses differ by no more than the responses or the integral parts differed after that reading. Missing: controllers that do not
compute at the same reading (`C187_out_of_step_counterexample`). -/
theorem C187_no_drift_partial {cfg : PidConfig Rat} {b : Build} {t0 : Int} {s0 s t s1 t1 : Pid Rat} {ops : List (PID.Op Rat)}
    (h0 : PID.create cfg b t0 = .ok s0) (hs : PID.run cfg b s0 ops = .ok s) (hst : s.SameSettings t)
    {v : Rat} {now : Int} (e1 : PID.newReading s v now = .ok (true, s1)) (e2 : PID.newReading t v now = .ok (true, t1)) (more : List (PID.Op Rat)) :
    (∃ e, PID.run cfg b s1 more = .error e ∧ PID.run cfg b t1 more = .error e) ∨
    ∃ s2 t2, PID.run cfg b s1 more = .ok s2 ∧ PID.run cfg b t1 more = .ok t2 ∧ s2.lastTime = t2.lastTime ∧ s2.SameSettings t2 ∧
      |s2.output - t2.output| ≤ max |s1.cumulative - t1.cumulative| |s1.output - t1.output| := by
  obtain ⟨j1, j2, j3⟩ := joins hst e1 e2
  have hn : Pid.Near (max |s1.cumulative - t1.cumulative| |s1.output - t1.output|) s1 t1 :=
    ⟨j1, by rw [j2, j3]; exact run_limits (create_limits h0) hs, le_max_left _ _, le_max_right _ _⟩
  rcases hn.run b cfg more with h | ⟨s2, t2, d1, d2, h⟩
  · exact .inl h
  · refine .inr ⟨s2, t2, d1, d2, ?_, ?_, h.output⟩
    · rw [h.same]
    · rw [h.same]; exact ⟨rfl, rfl, rfl, rfl, rfl, rfl, rfl, rfl, rfl⟩

/-- **C187**: if the integral parts and the responses of two such controllers are the same after a reading that both compute with, such as when both are at the same limit, they do the same for
ever. -/
theorem C187_meet {cfg : PidConfig Rat} {b : Build} {s t s1 t1 : Pid Rat} (hst : s.SameSettings t) {v : Rat} {now : Int} (e1 : PID.newReading s v now = .ok (true, s1))
    (e2 : PID.newReading t v now = .ok (true, t1)) (hc : s1.cumulative = t1.cumulative) (ho : s1.output = t1.output) (more : List (PID.Op Rat)) : PID.run cfg b s1 more = PID.run cfg b t1 more := by
  obtain ⟨j1, -, -⟩ := joins hst e1 e2
  rw [← hc, ← ho] at j1
  rw [j1]

/-- Integral part only, limits of 10 on both sides, every 100 ms. -/
def integral : PidConfig Rat := { kp := 0, ki := 1000, kd := 0, lower := -10, upper := 10 }

/-- A controller made and initialised at 1000 ms, after the operations. -/
def standby (ops : List (PID.Op Rat)) : Res (Pid Rat) := PID.create integral .debug 1000 >>= fun s => PID.run integral .debug s (.start :: ops)

/-- Two controllers of the same configuration, of which one has a reading of 1/100 more than the other at first, and then both the same ones. -/
example : (standby [.reading (1 / 100) 1000, .reading 0 1100]).map (fun s => (s.output, s.lastTime)) = .ok (-1, 1100) ∧ (standby [.reading 0 1000, .reading 0 1100]).map (fun s => (s.output, s.lastTime)) = .ok (0, 1100) ∧
    (standby [.reading (1 / 100) 1000, .reading 0 1100, .reading (1 / 20) 1200]).map Pid.output = .ok (-6) ∧ (standby [.reading 0 1000, .reading 0 1100, .reading (1 / 20) 1200]).map Pid.output = .ok (-5) := by decide +kernel

/-- C187 is false for controllers that do not compute at the same readings: one has had a reading at 1000 ms, the other one has not; both get the same readings from 1050 ms on, every 50 ms, around
the setpoint. The one computes with every second reading, the other one with the others, and they end at opposite limits. -/
theorem C187_out_of_step_counterexample : ∃ more : List (PID.Op Rat), more = [.reading (-1) 1050, .reading 1 1100, .reading (-1) 1150, .reading 1 1200] ∧
    ((standby [.reading 1 1000]).bind fun s => (standby []).map fun t => decide (s.SameSettings t)) = .ok true ∧
    (standby (.reading 1 1000 :: more)).map Pid.output = .ok (-10) ∧ (standby more).map Pid.output = .ok 10 :=
  ⟨_, rfl, by decide +kernel, by decide +kernel, by decide +kernel⟩

end Spine
