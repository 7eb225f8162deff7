import Verif.Model.Pid
import Verif.Model.Filter
import Verif.Props.FilterUnits
/-!
# C198: the response to a sum is the sum of the responses
-/

namespace Spine

/-- The combination `a * x + b * y`. -/
def mix (a b x y : Rat) : Rat := a * x + b * y

/-! ## Averages -/

/-- What an average shows after each sample. -/
def Ewma.shown (k : Rat) (s : Ewma Rat) : List Rat → List Rat
  | [] => []
  | x :: xs => (s.sample k x).value :: Ewma.shown k (s.sample k x) xs

theorem Ewma.sample_mix (a b k : Rat) {s t u : Ewma Rat} (hn : t.n = s.n ∧ u.n = s.n) (hv : s.n ≠ 0 → u.value = mix a b s.value t.value) (x y : Rat) :
    (t.sample k y).n = (s.sample k x).n ∧ (u.sample k (mix a b x y)).n = (s.sample k x).n ∧ (u.sample k (mix a b x y)).value = mix a b (s.sample k x).value (t.sample k y).value := by
  simp only [Ewma.sample, hn.1, hn.2]
  have e : feq s.n (fzero : Rat) = decide (s.n = 0) := feq_rat s.n 0
  rw [e]
  by_cases h : s.n = 0
  · simp [h]
  · simp only [h, decide_false, Bool.false_eq_true, if_false]
    refine ⟨trivial, trivial, ?_⟩
    rw [hv h]
    show mix a b s.value t.value + (mix a b x y - mix a b s.value t.value) / _ = mix a b (s.value + (x - s.value) / _) (t.value + (y - t.value) / _)
    simp only [mix]
    ring

theorem Ewma.shown_mix (a b k : Rat) (xs : List (Rat × Rat)) : ∀ {s t u : Ewma Rat}, (t.n = s.n ∧ u.n = s.n) → (s.n ≠ 0 → u.value = mix a b s.value t.value) →
    Ewma.shown k u (xs.map fun p => mix a b p.1 p.2) = List.zipWith (mix a b) (Ewma.shown k s (xs.map Prod.fst)) (Ewma.shown k t (xs.map Prod.snd)) := by
  induction xs with
  | nil => intro s t u _ _; rfl
  | cons p xs ih =>
    intro s t u hn hv
    obtain ⟨h1, h2, h3⟩ := Ewma.sample_mix a b k hn hv p.1 p.2
    simp only [List.map_cons, Ewma.shown, List.zipWith_cons_cons, h3]
    rw [ih ⟨h1, h2⟩ fun _ => h3]

/-- **C198.** What an average shows of a combination of two signals, say of a quantity and noise, is the combination of what averages show of them. -/
theorem C198_average (a b k : Rat) (xs : List (Rat × Rat)) :
    Ewma.shown k Ewma.create (xs.map fun p => mix a b p.1 p.2) = List.zipWith (mix a b) (Ewma.shown k Ewma.create (xs.map Prod.fst)) (Ewma.shown k Ewma.create (xs.map Prod.snd)) :=
  Ewma.shown_mix a b k xs ⟨rfl, rfl⟩ fun h => absurd rfl h

/-! ## Controllers -/

/-- The controller is not at a limit. -/
def Pid.Free (s : Pid Rat) : Prop := s.lo < s.cumulative ∧ s.cumulative < s.hi ∧ s.lo < s.output ∧ s.output < s.hi

/-- `u` combines `s` and `t`. -/
structure Pid.Mixes (a b : Rat) (s t u : Pid Rat) : Prop where
  kp : t.kp = s.kp ∧ u.kp = s.kp
  ki : t.ki = s.ki ∧ u.ki = s.ki
  kd : t.kd = s.kd ∧ u.kd = s.kd
  mode : t.onMeasurement = s.onMeasurement ∧ u.onMeasurement = s.onMeasurement
  setpoint : u.setpoint = mix a b s.setpoint t.setpoint
  cumulative : u.cumulative = mix a b s.cumulative t.cumulative
  output : u.output = mix a b s.output t.output
  lastReading : u.lastReading = mix a b s.lastReading t.lastReading
  sampling : t.sampling = s.sampling ∧ u.sampling = s.sampling
  lastTime : t.lastTime = s.lastTime ∧ u.lastTime = s.lastTime

theorem clamp_free {lo hi x : Rat} (h : lo < Pid.clamp lo hi x ∧ Pid.clamp lo hi x < hi) : Pid.clamp lo hi x = x := by
  unfold Pid.clamp at h ⊢
  split
  · rw [if_pos ‹_›] at h; exact absurd h.2 (lt_irrefl _)
  · rw [if_neg ‹_›] at h
    split
    · rw [if_pos ‹_›] at h; exact absurd h.1 (lt_irrefl _)
    · rfl

theorem Pid.compute_free {s : Pid Rat} {now : Int} (h : (s.compute now).Free) :
    (s.compute now).cumulative = (if s.onMeasurement then s.cumulative + s.ki * (s.setpoint - s.input) - s.kp * (s.input - s.lastReading) else s.cumulative + s.ki * (s.setpoint - s.input)) ∧
    (s.compute now).output = (if s.onMeasurement then 0 else s.kp * (s.setpoint - s.input)) + ((s.compute now).cumulative - s.kd * (s.input - s.lastReading)) := by
  obtain ⟨h1, h2, h3, h4⟩ := h
  have e1 : (s.compute now).cumulative = _ := clamp_free (x := if s.onMeasurement then s.cumulative + s.ki * (s.setpoint - s.input) - s.kp * (s.input - s.lastReading) else s.cumulative + s.ki * (s.setpoint - s.input)) ⟨h1, h2⟩
  exact ⟨e1, clamp_free (x := (if s.onMeasurement then 0 else s.kp * (s.setpoint - s.input)) + ((s.compute now).cumulative - s.kd * (s.input - s.lastReading))) ⟨h3, h4⟩⟩

/-- **C198.** A reading of three controllers with the same gains, the third of which has combined readings and a combined setpoint: they compute or do not compute alike, and if none of them is at a
limit afterwards, the third one has the combined output. -/
theorem C198_step {a b : Rat} {s t u : Pid Rat} (h : Pid.Mixes a b s t u) {now : Int} {x y : Rat} {f : Bool} {s' : Pid Rat} (hs : PID.newReading s x now = .ok (f, s')) :
    ∃ t' u', PID.newReading t y now = .ok (f, t') ∧ PID.newReading u (mix a b x y) now = .ok (f, u') ∧ (s'.Free → t'.Free → u'.Free → Pid.Mixes a b s' t' u') := by
  have d1 : ∀ p : Pid Rat, p.lastTime = s.lastTime → p.sampling = s.sampling → ∀ v : Rat, PID.newReading p v now = .ok (f, if f then ({ p with input := v } : Pid Rat).compute now else { p with input := v }) := by
    intro p e1 e2 v
    unfold PID.newReading Pid.update at hs ⊢
    obtain ⟨d, k1, hs⟩ := res_bind hs
    obtain ⟨c, k2, hs⟩ := res_bind hs
    simp only [e1, e2] at k1 k2 ⊢
    simp only [k1, k2, res_bind_ok]
    cases c <;> (obtain ⟨rfl, rfl⟩ := Prod.mk.inj (Except.ok.inj hs); rfl)
  obtain rfl : _ = s' := (Prod.mk.inj (Except.ok.inj ((d1 s rfl rfl x).symm.trans hs))).2
  refine ⟨_, _, d1 t h.lastTime.1 h.sampling.1 y, d1 u h.lastTime.2 h.sampling.2 _, ?_⟩
  cases f with
  | false => exact fun _ _ _ => ⟨h.kp, h.ki, h.kd, h.mode, h.setpoint, h.cumulative, h.output, h.lastReading, h.sampling, h.lastTime⟩
  | true =>
    simp only [if_true]
    intro f1 f2 f3
    have g1 := Pid.compute_free f1
    have g2 := Pid.compute_free f2
    have g3 := Pid.compute_free f3
    have hc : (({ u with input := mix a b x y } : Pid Rat).compute now).cumulative =
        mix a b (({ s with input := x } : Pid Rat).compute now).cumulative (({ t with input := y } : Pid Rat).compute now).cumulative := by
      rw [g1.1, g2.1, g3.1]
      simp only [h.kp, h.ki, h.mode, h.setpoint, h.cumulative, h.lastReading, mix]
      cases s.onMeasurement <;> simp <;> ring
    refine ⟨h.kp, h.ki, h.kd, h.mode, h.setpoint, hc, ?_, rfl, h.sampling, ⟨rfl, rfl⟩⟩
    rw [g1.2, g2.2, g3.2, hc]
    simp only [h.kp, h.kd, h.mode, h.setpoint, h.lastReading, mix]
    cases s.onMeasurement <;> simp <;> ring

/-- The controller is at no limit after any of the readings. -/
def Pid.FreeThroughout (s : Pid Rat) (rs : List (Int × Rat)) : Prop := ∀ pre fs s', pre <+: rs → pre ≠ [] → PID.readings s pre = .ok (fs, s') → s'.Free

theorem Pid.FreeThroughout.first {s s1 : Pid Rat} {r : Int × Rat} {rs : List (Int × Rat)} {f : Bool} (h : s.FreeThroughout (r :: rs)) (h1 : PID.newReading s r.2 r.1 = .ok (f, s1)) :
    s1.Free ∧ s1.FreeThroughout rs := by
  constructor
  · refine h [r] [f] s1 (by simp) (by simp) ?_
    obtain ⟨now, v⟩ := r
    simp only at h1
    simp only [PID.readings, h1, res_bind_ok]
    rfl
  · intro pre fs s' hp _ hr
    refine h (r :: pre) (f :: fs) s' (by simpa using hp) (by simp) ?_
    obtain ⟨now, v⟩ := r
    simp only at h1
    simp only [PID.readings, h1, res_bind_ok, hr]
    rfl

/-- **C198.** A series of readings of such controllers that keep off their limits: the third one computes when the first one does, and ends with the combined output. As this holds for every
series, it holds after each of the readings. -/
theorem C198_controller {a b : Rat} {s t u : Pid Rat} (h : Pid.Mixes a b s t u) (rs : List (Int × Rat × Rat)) {fs : List Bool} {s' : Pid Rat} (hs : PID.readings s (rs.map fun r => (r.1, r.2.1)) = .ok (fs, s'))
    (f1 : s.FreeThroughout (rs.map fun r => (r.1, r.2.1))) (f2 : t.FreeThroughout (rs.map fun r => (r.1, r.2.2))) (f3 : u.FreeThroughout (rs.map fun r => (r.1, mix a b r.2.1 r.2.2))) :
    ∃ t' u', PID.readings t (rs.map fun r => (r.1, r.2.2)) = .ok (fs, t') ∧ PID.readings u (rs.map fun r => (r.1, mix a b r.2.1 r.2.2)) = .ok (fs, u') ∧ Pid.Mixes a b s' t' u' := by
  induction rs generalizing s t u fs with
  | nil =>
    obtain ⟨rfl, rfl⟩ := Prod.mk.inj (Except.ok.inj hs)
    exact ⟨t, u, rfl, rfl, h⟩
  | cons r rs ih =>
    obtain ⟨now, x, y⟩ := r
    simp only [List.map_cons] at hs f1 f2 f3 ⊢
    rw [PID.readings] at hs
    obtain ⟨⟨f, s1⟩, e1, hs⟩ := res_bind hs
    obtain ⟨⟨fs1, s2⟩, e2, hs⟩ := res_bind hs
    obtain ⟨rfl, rfl⟩ := Prod.mk.inj (Except.ok.inj hs)
    obtain ⟨t1, u1, k1, k2, k3⟩ := C198_step h (y := y) e1
    have g1 := f1.first e1
    have g2 := f2.first k1
    have g3 := f3.first k2
    obtain ⟨t', u', m1, m2, m3⟩ := ih (k3 g1.1 g2.1 g3.1) e2 g1.2 g2.2 g3.2
    refine ⟨t', u', ?_, ?_, m3⟩
    · simp only [PID.readings, k1, res_bind_ok, m1]; rfl
    · simp only [PID.readings, k2, res_bind_ok, m2]; rfl

theorem clamp_zero {lo hi : Rat} (h1 : lo ≤ 0) (h2 : 0 ≤ hi) : Pid.clamp lo hi 0 = 0 := by
  have e1 : Arith.lt hi 0 = false := decide_eq_false (not_lt.mpr h2)
  have e2 : Arith.lt (0 : Rat) lo = false := decide_eq_false (not_lt.mpr h1)
  simp [Pid.clamp, e1, e2]

theorem Pid.create_zero {b : Build} {now : Int} {kp ki kd : Rat} {m r : Bool} {s : Pid Rat} (h : Pid.create b now 0 0 0 kp ki kd m r = .ok s) : s.input = 0 ∧ s.output = 0 ∧ s.cumulative = 0 := by
  unfold Pid.create Pid.setTunings at h
  obtain ⟨s1, h1, h⟩ := res_bind h
  obtain ⟨x, -, h⟩ := res_bind h
  obtain rfl := Except.ok.inj h
  obtain ⟨_, -, h1⟩ := res_bind h1
  obtain ⟨_, -, h1⟩ := res_bind h1
  obtain ⟨_, -, h1⟩ := res_bind h1
  obtain rfl := Except.ok.inj h1
  simp only
  cases r <;> exact ⟨rfl, rfl, rfl⟩

theorem PID.start_zero {cfg : PidConfig Rat} {s s' : Pid Rat} (h : PID.start cfg s = .ok s') (h1 : cfg.lower ≤ 0) (h2 : 0 ≤ cfg.upper) (h3 : cfg.lower < cfg.upper)
    (z : s.input = 0 ∧ s.output = 0 ∧ s.cumulative = 0) : s'.lastReading = 0 ∧ s'.output = 0 ∧ s'.cumulative = 0 := by
  unfold PID.start at h
  obtain ⟨s1, e1, h⟩ := res_bind h
  obtain rfl := Except.ok.inj h
  have e : Arith.le cfg.upper cfg.lower = false := decide_eq_false (not_le.mpr h3)
  simp only [Pid.setLimits, e, Bool.false_eq_true, if_false, z.2.1, z.2.2, clamp_zero h1 h2] at e1
  unfold Pid.setSampling at e1
  obtain ⟨c, -, e1⟩ := res_bind e1
  have k : s1.input = 0 ∧ s1.output = 0 ∧ s1.lo = cfg.lower ∧ s1.hi = cfg.upper := by
    cases c with
    | false => obtain rfl := Except.ok.inj e1; exact ⟨z.1, rfl, rfl, rfl⟩
    | true =>
      simp only [if_true] at e1
      split at e1
      · cases e1
      · obtain rfl := Except.ok.inj e1; exact ⟨z.1, rfl, rfl, rfl⟩
  exact ⟨k.1, k.2.1, by simp only [Pid.start, k.2.1, k.2.2.1, k.2.2.2, clamp_zero h1 h2]⟩

/-- **C198.** Three controllers constructed and initialised alike, with limits around zero, start out combined, if their setpoints are. -/
theorem C198_fresh (a b : Rat) {cfg : PidConfig Rat} {bd : Build} {now : Int} {s0 s : Pid Rat} (h1 : cfg.lower ≤ 0) (h2 : 0 ≤ cfg.upper) (h3 : cfg.lower < cfg.upper)
    (hc : PID.create cfg bd now = .ok s0) (hs : PID.start cfg s0 = .ok s) (p q : Rat) :
    Pid.Mixes a b { s with setpoint := p } { s with setpoint := q } { s with setpoint := mix a b p q } := by
  unfold PID.create at hc
  obtain ⟨s1, e1, hc⟩ := res_bind hc
  obtain ⟨_, -, hc⟩ := res_bind hc
  obtain rfl := Except.ok.inj hc
  obtain ⟨z1, z2, z3⟩ := PID.start_zero hs h1 h2 h3 (Pid.create_zero e1)
  refine ⟨⟨rfl, rfl⟩, ⟨rfl, rfl⟩, ⟨rfl, rfl⟩, ⟨rfl, rfl⟩, rfl, ?_, ?_, ?_, ⟨rfl, rfl⟩, ⟨rfl, rfl⟩⟩ <;> simp [mix, z1, z2, z3]

/-! ## Concrete cases -/

/-- Two signals and their sum. -/
example : Ewma.shown 10 Ewma.create [1, 2, 4] = [1, 3 / 2, 7 / 3] ∧ Ewma.shown 10 Ewma.create [2, 0, 0] = [2, 1, 2 / 3] ∧
    Ewma.shown 10 Ewma.create [3, 2, 4] = [3, 5 / 2, 3] := by decide +kernel

/-- A controller that can drive both ways. -/
def servo : PidConfig Rat := { kp := 2, ki := 1, kd := 0, lower := -100, upper := 100 }

/-- The output after the readings `rs`, for the setpoint `p`. -/
def servoOutput (b : Build) (p : Rat) (rs : List (Int × Rat)) : Res Rat := do
  let s ← PID.create servo b 0
  let s ← PID.start servo s
  return (← PID.readings { s with setpoint := p } rs).2.output

theorem Pid.FreeThroughout.cons {s s1 : Pid Rat} {now : Int} {v : Rat} {rs : List (Int × Rat)} {f : Bool} (h1 : PID.newReading s v now = .ok (f, s1)) (hf : s1.Free) (h : s1.FreeThroughout rs) :
    s.FreeThroughout ((now, v) :: rs) := by
  intro pre fs s' hp hne hr
  cases pre with
  | nil => exact absurd rfl hne
  | cons r pre =>
    obtain ⟨rfl, hp2⟩ := List.cons_prefix_cons.mp hp
    simp only [PID.readings, h1, res_bind_ok] at hr
    obtain ⟨⟨fs1, s2⟩, e2, hr⟩ := res_bind hr
    obtain ⟨-, rfl⟩ := Prod.mk.inj (Except.ok.inj hr)
    cases pre with
    | nil => obtain ⟨-, rfl⟩ := Prod.mk.inj (Except.ok.inj e2); exact hf
    | cons r2 pre => exact h _ _ _ hp2 (by simp) e2

theorem Pid.FreeThroughout.nil (s : Pid Rat) : s.FreeThroughout [] := by
  intro pre fs s' hp hne _
  exact absurd (List.prefix_nil.mp hp) hne

instance (s : Pid Rat) : Decidable s.Free := by unfold Pid.Free; infer_instance

/-- Tells whether the controller is at no limit after any of the readings. -/
def Pid.keepsOff (s : Pid Rat) : List (Int × Rat) → Bool
  | [] => true
  | (now, v) :: rs => match PID.newReading s v now with
    | .ok (_, s1) => decide s1.Free && s1.keepsOff rs
    | .error _ => false

theorem Pid.keepsOff_free (rs : List (Int × Rat)) : ∀ s : Pid Rat, s.keepsOff rs = true → s.FreeThroughout rs := by
  induction rs with
  | nil => intro s _; exact .nil s
  | cons r rs ih =>
    intro s h
    rw [Pid.keepsOff] at h
    split at h
    · rename_i f s1 e
      obtain ⟨h1, h2⟩ := Bool.and_eq_true_iff.mp h
      exact .cons e (of_decide_eq_true h1) (ih s1 h2)
    · cases h

/-- Three controllers that keep off their limits for two readings. -/
example (b : Build) : (do let s ← PID.create servo b 0; let s ← PID.start servo s
                          return [(20, 5, 6), (10, 1, 3), (30, 6, 9)].map fun (c : Rat × Rat × Rat) => ({ s with setpoint := c.1 } : Pid Rat).keepsOff [(100, c.2.1), (200, c.2.2)]) = .ok [true, true, true] := by
  cases b <;> decide +kernel

/-- Off the limits, the outputs add up. -/
example (b : Build) : servoOutput b 20 [(100, 5), (200, 6)] = .ok (-91 / 10) ∧ servoOutput b 10 [(100, 1), (200, 3)] = .ok (-22 / 5) ∧ servoOutput b 30 [(100, 6), (200, 9)] = .ok (-27 / 2) := by
  cases b <;> decide +kernel

/-- C198 is false for a controller at a limit: twice the input does not lead to twice the output. -/
theorem C198_limit_counterexample (b : Build) : servoOutput b 0 [(100, -40)] = .ok 84 ∧ servoOutput b 0 [(100, -80)] = .ok 100 := by
  cases b <;> decide +kernel

end Spine
