import Verif.Props.PidSteady
/-!
# C184: a controller does not depend on the unit of the quantity it controls
-/

namespace Spine
open Pid

/-- A change of the unit, as from Celsius to Fahrenheit: `x` of the old unit is `a * x + c` of the new one. -/
structure Rescale where
  a : Rat
  c : Rat
  pos : 0 < a

namespace Rescale

/-- A reading or a setpoint in the new unit. -/
def value (u : Rescale) (x : Rat) : Rat := u.a * x + u.c

/-- A gain, per unit of the quantity. -/
def gain (u : Rescale) (k : Rat) : Rat := k / u.a

/-- The same configuration in the new unit. -/
def config (u : Rescale) (cfg : PidConfig Rat) : PidConfig Rat := { cfg with kp := u.gain cfg.kp, ki := u.gain cfg.ki, kd := u.gain cfg.kd }

/-- The same use of a controller in the new unit. -/
def op (u : Rescale) : PID.Op Rat → PID.Op Rat
  | .start => .start
  | .reading v now => .reading (u.value v) now
  | .setpoint v => .setpoint (u.value v)
  | .tunings kp ki kd m => .tunings (u.gain kp) (u.gain ki) (u.gain kd) m

/-- The same controller in the new unit. -/
def pid (u : Rescale) (s : Pid Rat) : Pid Rat :=
  { s with kp := u.gain s.kp, ki := u.gain s.ki, kd := u.gain s.kd, input := u.value s.input, setpoint := u.value s.setpoint, lastReading := u.value s.lastReading }

theorem gain_zero (u : Rescale) : u.gain 0 = 0 := zero_div _

theorem gain_mul (u : Rescale) (k x y : Rat) : u.gain k * (u.value x - u.value y) = k * (x - y) := by
  have := u.pos.ne'
  simp only [gain, value]
  field_simp
  ring

theorem le_gain (u : Rescale) (k : Rat) : Arith.le (fzero : Rat) (u.gain k) = Arith.le (fzero : Rat) k := by
  have : (0 ≤ u.gain k) = (0 ≤ k) := by
    simp only [gain, eq_iff_iff]
    exact ⟨fun h => by have := mul_nonneg h u.pos.le; rwa [div_mul_cancel₀ _ u.pos.ne'] at this, fun h => div_nonneg h u.pos.le⟩
  change decide (0 ≤ u.gain k) = decide (0 ≤ k)
  simp only [this]

theorem tunings_pid (u : Rescale) (b : Build) (s : Pid Rat) (kp ki kd : Rat) (m : Bool) :
    (u.pid s).setTunings b (u.gain kp) (u.gain ki) (u.gain kd) m = (s.setTunings b kp ki kd m).map u.pid := by
  simp only [setTunings, le_gain]
  cases spnAssert b (Arith.le (fzero : Rat) kp && Arith.le fzero ki && Arith.le fzero kd) with
  | error e => rfl
  | ok _ =>
    change (msGt s.sampling 0 >>= _) = ((msGt s.sampling 0 >>= _) : Res (Pid Rat)).map u.pid
    cases msGt s.sampling 0 with
    | error e => rfl
    | ok g =>
      simp only [res_bind_ok]
      cases spnAssert b g with
      | error e => rfl
      | ok _ =>
        simp only [res_bind_ok, res_pure, Except.map]
        rcases s with ⟨kp', ki', kd', r, i, o, sp, lt, c, lr, sa, lo, hi, m'⟩
        have e1 : ∀ q : Rat, (Arith.mul (u.gain ki) q : Rat) = u.gain (Arith.mul ki q) := fun q => by change ki / u.a * q = ki * q / u.a; ring
        have e2 : ∀ q : Rat, (Arith.div (u.gain kd) q : Rat) = u.gain (Arith.div kd q) := fun q => by change kd / u.a / q = kd / q / u.a; ring
        have e3 : ∀ q : Rat, (Arith.sub fzero (u.gain q) : Rat) = u.gain (Arith.sub fzero q) := fun q => by change 0 - q / u.a = (0 - q) / u.a; ring
        cases r <;> simp [pid, negate, e1, e2, e3]

theorem compute_pid (u : Rescale) (s : Pid Rat) (now : Int) : (u.pid s).compute now = u.pid (s.compute now) := by
  rw [compute_rat, compute_rat]
  simp only [pid]
  have e1 : cond s.onMeasurement (u.gain s.kp) 0 = u.gain (cond s.onMeasurement s.kp 0) := by cases s.onMeasurement <;> simp [gain_zero]
  have e2 : cond s.onMeasurement 0 (u.gain s.kp) = u.gain (cond s.onMeasurement 0 s.kp) := by cases s.onMeasurement <;> simp [gain_zero]
  simp only [e1, e2, gain_mul]

theorem update_pid (u : Rescale) (s : Pid Rat) (now : Int) : (u.pid s).update now = (s.update now).map fun r => (r.1, u.pid r.2) := by
  unfold update
  change (msSub now s.lastTime >>= fun d => msGe d s.sampling >>= _) = ((msSub now s.lastTime >>= fun d => msGe d s.sampling >>= _) : Res (Bool × Pid Rat)).map _
  cases msSub now s.lastTime with
  | error e => rfl
  | ok d =>
    simp only [res_bind_ok]
    cases msGe d s.sampling with
    | error e => rfl
    | ok g =>
      cases g
      · rfl
      · simp only [res_bind_ok, if_true, compute_pid]; rfl

theorem sampling_pid (u : Rescale) (s : Pid Rat) (t : Int) : (u.pid s).setSampling t = (s.setSampling t).map u.pid := by
  unfold setSampling
  cases msGt t 0 with
  | error e => rfl
  | ok g =>
    cases g
    · rfl
    · simp only [res_bind_ok, if_true]
      have hs : (u.pid s).sampling = s.sampling := rfl
      rw [hs]
      by_cases h0 : s.sampling = 0
      · simp only [h0, if_true]; rfl
      · simp only [h0, if_false, res_bind_ok, res_pure, Except.map]
        have e1 : ∀ q : Rat, (Arith.mul (u.gain s.ki) q : Rat) = u.gain (Arith.mul s.ki q) := fun q => by change s.ki / u.a * q = s.ki * q / u.a; ring
        have e2 : ∀ q : Rat, (Arith.div (u.gain s.kd) q : Rat) = u.gain (Arith.div s.kd q) := fun q => by change s.kd / u.a / q = s.kd / q / u.a; ring
        simp [pid, e1, e2]

theorem exec_pid (u : Rescale) (cfg : PidConfig Rat) (b : Build) (s : Pid Rat) (o : PID.Op Rat) :
    PID.exec (u.config cfg) b (u.pid s) (u.op o) = (PID.exec cfg b s o).map u.pid := by
  cases o with
  | start =>
    change PID.start (u.config cfg) (u.pid s) = (PID.start cfg s).map u.pid
    unfold PID.start
    have e : (u.pid s).setLimits cfg.lower cfg.upper = u.pid (s.setLimits cfg.lower cfg.upper) := by
      unfold setLimits; split <;> rfl
    change (((u.pid s).setLimits cfg.lower cfg.upper).setSampling cfg.interval >>= _) = _
    rw [e, sampling_pid]
    cases (s.setLimits cfg.lower cfg.upper).setSampling cfg.interval <;> rfl
  | reading v now =>
    simp only [op, PID.exec, PID.newReading]
    have e : ({ u.pid s with input := u.value v } : Pid Rat) = u.pid { s with input := v } := rfl
    rw [e, update_pid]
    cases ({ s with input := v } : Pid Rat).update now <;> rfl
  | setpoint v => rfl
  | tunings kp ki kd m => exact tunings_pid u b s kp ki kd m

theorem run_pid (u : Rescale) (cfg : PidConfig Rat) (b : Build) (ops : List (PID.Op Rat)) : ∀ s : Pid Rat,
    PID.run (u.config cfg) b (u.pid s) (ops.map u.op) = (PID.run cfg b s ops).map u.pid := by
  induction ops with
  | nil => intro s; rfl
  | cons o ops ih =>
    intro s
    simp only [List.map_cons, PID.run, exec_pid]
    cases PID.exec cfg b s o with
    | error e => rfl
    | ok s' => simp only [Except.map, res_bind_ok]; exact ih s'

/-- The same controller in the new unit, before it has seen a reading. -/
def fresh (u : Rescale) (s : Pid Rat) : Pid Rat := { u.pid s with lastReading := s.lastReading }

theorem tunings_fresh (u : Rescale) (b : Build) (s : Pid Rat) (kp ki kd : Rat) (m : Bool) :
    (u.fresh s).setTunings b (u.gain kp) (u.gain ki) (u.gain kd) m = (s.setTunings b kp ki kd m).map u.fresh := by
  simp only [setTunings, le_gain]
  cases spnAssert b (Arith.le (fzero : Rat) kp && Arith.le fzero ki && Arith.le fzero kd) with
  | error e => rfl
  | ok _ =>
    change (msGt s.sampling 0 >>= _) = ((msGt s.sampling 0 >>= _) : Res (Pid Rat)).map u.fresh
    cases msGt s.sampling 0 with
    | error e => rfl
    | ok g =>
      simp only [res_bind_ok]
      cases spnAssert b g with
      | error e => rfl
      | ok _ =>
        simp only [res_bind_ok, res_pure, Except.map]
        rcases s with ⟨kp', ki', kd', r, i, o, sp, lt, c, lr, sa, lo, hi, m'⟩
        have e1 : ∀ q : Rat, (Arith.mul (u.gain ki) q : Rat) = u.gain (Arith.mul ki q) := fun q => by change ki / u.a * q = ki * q / u.a; ring
        have e2 : ∀ q : Rat, (Arith.div (u.gain kd) q : Rat) = u.gain (Arith.div kd q) := fun q => by change kd / u.a / q = kd / q / u.a; ring
        have e3 : ∀ q : Rat, (Arith.sub fzero (u.gain q) : Rat) = u.gain (Arith.sub fzero q) := fun q => by change 0 - q / u.a = (0 - q) / u.a; ring
        cases r <;> simp [fresh, pid, negate, e1, e2, e3]


theorem create_fresh (u : Rescale) (b : Build) (now : Int) (i o sp kp ki kd : Rat) (m r : Bool) :
    Pid.create b now (u.value i) o (u.value sp) (u.gain kp) (u.gain ki) (u.gain kd) m r = (Pid.create b now i o sp kp ki kd m r).map u.fresh := by
  have shape : ∀ (i sp kp ki kd : Rat), Pid.create b now i o sp kp ki kd m r =
      ((({ kp := fzero, ki := fzero, kd := fzero, reverse := false, input := i, output := o, setpoint := sp, lastTime := 0, cumulative := fzero, lastReading := fzero, sampling := 100, lo := fzero, hi := Arith.ofRat 255, onMeasurement := true } : Pid Rat).setDirection r).setTunings b kp ki kd m) >>=
        fun s => msSub now s.sampling >>= fun t => .ok { s with lastTime := t } := fun _ _ _ _ _ => rfl
  rw [shape, shape]
  have hg : u.gain (fzero : Rat) = fzero := u.gain_zero
  have hg' : u.gain (Arith.sub (fzero : Rat) fzero) = Arith.sub fzero fzero := by
    have : (Arith.sub (fzero : Rat) fzero) = 0 := by decide +kernel
    rw [this, u.gain_zero]
  have e1 : ({ kp := fzero, ki := fzero, kd := fzero, reverse := false, input := u.value i, output := o, setpoint := u.value sp, lastTime := 0, cumulative := fzero, lastReading := fzero, sampling := 100, lo := fzero, hi := Arith.ofRat 255, onMeasurement := true } : Pid Rat).setDirection r =
      u.fresh (({ kp := fzero, ki := fzero, kd := fzero, reverse := false, input := i, output := o, setpoint := sp, lastTime := 0, cumulative := fzero, lastReading := fzero, sampling := 100, lo := fzero, hi := Arith.ofRat 255, onMeasurement := true } : Pid Rat).setDirection r) := by
    cases r <;> simp [fresh, pid, setDirection, negate, hg, hg']
  rw [e1, u.tunings_fresh]
  generalize setTunings b _ kp ki kd m = q
  cases q with
  | error e => rfl
  | ok s =>
    simp only [Except.map, res_bind_ok]
    change (msSub now s.sampling >>= _) = _
    cases msSub now s.sampling <;> rfl

end Rescale

/-- The response after a use. -/
def Pid.shown (r : Res (Pid Rat)) : Res Rat := do return (← r).output

/-- **C184** for a change of the scale only, in exact arithmetic, from construction on: after any use, a controller whose readings, setpoints and gains are given in the new unit has the
response of the one in the old unit, or fails with it. -/
theorem C184_scale {u : Rescale} (hc : u.c = 0) (cfg : PidConfig Rat) (b : Build) (now : Int) (ops : List (PID.Op Rat)) :
    Pid.shown (PID.create (u.config cfg) b now >>= fun s => PID.run (u.config cfg) b s (ops.map u.op)) = Pid.shown (PID.create cfg b now >>= fun s => PID.run cfg b s ops) := by
  have hz : u.value (fzero : Rat) = fzero := by change u.a * 0 + u.c = 0; rw [hc]; ring
  have e := u.create_fresh b now fzero fzero fzero cfg.kp cfg.ki cfg.kd true cfg.reverse
  rw [hz] at e
  unfold PID.create
  change Pid.shown ((Pid.create b now fzero fzero fzero (u.gain cfg.kp) (u.gain cfg.ki) (u.gain cfg.kd) true cfg.reverse >>= _) >>= _) = _
  rw [e]
  cases h0 : Pid.create b now fzero fzero fzero cfg.kp cfg.ki cfg.kd true cfg.reverse with
  | error e => rfl
  | ok s =>
    have hl : u.fresh s = u.pid s := by
      have : s.lastReading = fzero := (create_state h0).2.2.2.2.1
      simp only [Rescale.fresh, Rescale.pid, this, hz]
    simp only [Except.map, res_bind_ok, hl]
    change Pid.shown ((spnAssert b (decide (cfg.interval > 0)) >>= _) >>= _) = _
    cases spnAssert b (decide (cfg.interval > 0)) with
    | error e => rfl
    | ok _ =>
      simp only [res_bind_ok, res_pure, u.run_pid]
      cases PID.run cfg b s ops <;> rfl

/-- The same use of a `PIDController` in the new unit. -/
def Rescale.backendOp (u : Rescale) : Pid.Op Rat → Pid.Op Rat
  | .input v => .input (u.value v)
  | .setpoint v => .setpoint (u.value v)
  | .tunings kp ki kd m => .tunings (u.gain kp) (u.gain ki) (u.gain kd) m
  | o => o

theorem Rescale.backendExec (u : Rescale) (b : Build) (s : Pid Rat) (o : Pid.Op Rat) : (u.pid s).exec b (u.backendOp o) = (s.exec b o).map u.pid := by
  cases o with
  | input v => rfl
  | setpoint v => rfl
  | update now =>
    simp only [backendOp, Pid.exec, u.update_pid]
    cases s.update now <;> rfl
  | tunings kp ki kd m => exact u.tunings_pid b s kp ki kd m
  | direction r =>
    have e3 : ∀ q : Rat, (Arith.sub fzero (u.gain q) : Rat) = u.gain (Arith.sub fzero q) := fun q => by change 0 - q / u.a = (0 - q) / u.a; ring
    simp only [backendOp, Pid.exec, setDirection, Except.map]
    change Except.ok (if r != s.reverse then _ else _) = _
    split
    · simp [Rescale.pid, negate, e3]
    · rfl
  | sampling t => exact u.sampling_pid s t
  | limits lo hi => simp only [backendOp, Pid.exec, setLimits]; split <;> rfl
  | start => rfl

theorem Rescale.backendRun (u : Rescale) (b : Build) (ops : List (Pid.Op Rat)) : ∀ s : Pid Rat, (u.pid s).run b (ops.map u.backendOp) = (s.run b ops).map u.pid := by
  induction ops with
  | nil => intro s; rfl
  | cons o ops ih =>
    intro s
    simp only [List.map_cons, Pid.run, u.backendExec]
    cases s.exec b o with
    | error e => rfl
    | ok s' => simp only [Except.map, res_bind_ok]; exact ih s'

/-- **C184** for any change of the unit, in exact arithmetic, for a `PIDController` whose input variable holds a reading when `initialize()` is called: from there on, after any use, the outputs
are the same in both units. -/
theorem C184_backend (u : Rescale) (b : Build) (now : Int) (i o sp kp ki kd : Rat) (m r : Bool) (ops : List (Pid.Op Rat)) :
    Pid.shown (Pid.create b now (u.value i) o (u.value sp) (u.gain kp) (u.gain ki) (u.gain kd) m r >>= fun s => s.run b (.start :: ops.map u.backendOp)) =
    Pid.shown (Pid.create b now i o sp kp ki kd m r >>= fun s => s.run b (.start :: ops)) := by
  rw [u.create_fresh]
  cases Pid.create b now i o sp kp ki kd m r with
  | error e => rfl
  | ok s =>
    simp only [Except.map, res_bind_ok, Pid.run, Pid.exec]
    have : (u.fresh s).start = u.pid s.start := rfl
    rw [this, u.backendRun]
    cases s.start.run b ops <;> rfl

/-- A use that keeps the proportional part on the error, and no derivative part. -/
def OnErrorOnly : PID.Op Rat → Prop
  | .tunings _ _ kd m => kd = 0 ∧ m = false
  | _ => True

/-- The same controller in the new unit, up to the readings it has seen, which do not matter without derivative part. -/
def Rescale.Alike (u : Rescale) (s t : Pid Rat) : Prop := ∃ i l, t = { u.pid s with input := i, lastReading := l } ∧ s.kd = 0 ∧ s.onMeasurement = false

theorem Rescale.Alike.tunings {u : Rescale} {s t : Pid Rat} (i l : Rat) (ht : t = { u.pid s with input := i, lastReading := l }) (b : Build) (kp ki : Rat) :
    (∃ e, t.setTunings b (u.gain kp) (u.gain ki) (u.gain 0) false = .error e ∧ s.setTunings b kp ki 0 false = .error e) ∨
    ∃ s' t', t.setTunings b (u.gain kp) (u.gain ki) (u.gain 0) false = .ok t' ∧ s.setTunings b kp ki 0 false = .ok s' ∧ u.Alike s' t' := by
  have e0 : ∀ x : Pid Rat, ∀ kp ki kd : Rat, ({ x with input := i, lastReading := l } : Pid Rat).setTunings b kp ki kd false =
      (x.setTunings b kp ki kd false).map fun y => { y with input := i, lastReading := l } := by
    intro x kp ki kd
    simp only [setTunings]
    cases spnAssert b (Arith.le (fzero : Rat) kp && Arith.le fzero ki && Arith.le fzero kd) with
    | error e => rfl
    | ok _ =>
      simp only [res_bind_ok]
      cases msGt x.sampling 0 with
      | error e => rfl
      | ok g =>
        simp only [res_bind_ok]
        cases spnAssert b g with
        | error e => rfl
        | ok _ =>
          simp only [res_bind_ok, res_pure, Except.map]
          split <;> rfl
  rw [ht, e0, u.tunings_pid]
  cases h : s.setTunings b kp ki 0 false with
  | error e => exact .inl ⟨e, rfl, rfl⟩
  | ok s' =>
    refine .inr ⟨s', _, rfl, rfl, i, l, rfl, ?_⟩
    simp only [setTunings] at h
    obtain ⟨_, -, h⟩ := res_bind h
    obtain ⟨_, -, h⟩ := res_bind h
    obtain ⟨_, -, h⟩ := res_bind h
    have hz : ∀ q : Rat, (Arith.div (0 : Rat) q : Rat) = 0 := fun q => zero_div q
    have hz' : (Arith.sub (fzero : Rat) (0 : Rat) : Rat) = 0 := by decide +kernel
    cases h
    simp only [hz]
    split <;> simp [negate, hz']

theorem Rescale.Alike.exec {u : Rescale} {cfg : PidConfig Rat} {b : Build} {s t : Pid Rat} (h : u.Alike s t) {o : PID.Op Rat} (ho : OnErrorOnly o) :
    (∃ e, PID.exec (u.config cfg) b t (u.op o) = .error e ∧ PID.exec cfg b s o = .error e) ∨
    ∃ s' t', PID.exec (u.config cfg) b t (u.op o) = .ok t' ∧ PID.exec cfg b s o = .ok s' ∧ u.Alike s' t' := by
  obtain ⟨i, l, ht, hd, hm⟩ := h
  cases o with
  | start =>
    have e1 : PID.exec (u.config cfg) b t (u.op .start) = (PID.exec (u.config cfg) b (u.pid s) (u.op .start)).map fun y => { y with input := i, lastReading := i } := by
      rw [ht]
      change PID.start (u.config cfg) _ = (PID.start (u.config cfg) _).map _
      unfold PID.start
      have e : ∀ x : Pid Rat, ({ x with input := i, lastReading := l } : Pid Rat).setLimits (u.config cfg).lower (u.config cfg).upper =
          { x.setLimits (u.config cfg).lower (u.config cfg).upper with input := i, lastReading := l } := by
        intro x; unfold setLimits; split <;> rfl
      rw [e]
      generalize (u.pid s).setLimits (u.config cfg).lower (u.config cfg).upper = y
      unfold setSampling
      cases msGt (u.config cfg).interval 0 with
      | error e => rfl
      | ok g =>
        cases g
        · rfl
        · simp only [res_bind_ok, if_true]
          by_cases h0 : y.sampling = 0
          · simp only [h0, if_true]; rfl
          · simp only [h0, if_false]; rfl
    rw [e1, u.exec_pid]
    cases h : PID.exec cfg b s .start with
    | error e => exact .inl ⟨e, rfl, rfl⟩
    | ok s' =>
      refine .inr ⟨s', _, rfl, rfl, i, i, rfl, ?_⟩
      simp only [PID.exec, PID.start] at h
      obtain ⟨s1, h1, h⟩ := res_bind h
      cases h
      have hl : ∀ x : Pid Rat, (x.setLimits cfg.lower cfg.upper).kd = x.kd ∧ (x.setLimits cfg.lower cfg.upper).onMeasurement = x.onMeasurement := by
        intro x; unfold setLimits; split <;> exact ⟨rfl, rfl⟩
      obtain ⟨l1, l2⟩ := hl s
      generalize s.setLimits cfg.lower cfg.upper = y at h1 l1 l2
      simp only [setSampling] at h1
      obtain ⟨g, -, h1⟩ := res_bind h1
      cases g
      · cases h1; exact ⟨l1.trans hd, l2.trans hm⟩
      · simp only [if_true] at h1
        by_cases h0 : y.sampling = 0
        · simp only [h0, if_true] at h1; cases h1
        · simp only [h0, if_false] at h1
          cases h1
          refine ⟨?_, l2.trans hm⟩
          change y.kd / _ = 0
          rw [l1, hd, zero_div]
  | reading v now =>
    have e1 : PID.newReading t (u.value v) now = ((PID.newReading s v now).map fun r => (r.1, if r.1 then u.pid r.2 else { u.pid r.2 with lastReading := l })) := by
      rw [ht]
      unfold PID.newReading update
      change (msSub now s.lastTime >>= fun d => msGe d s.sampling >>= _) = ((msSub now s.lastTime >>= fun d => msGe d s.sampling >>= _) : Res (Bool × Pid Rat)).map _
      cases msSub now s.lastTime with
      | error e => rfl
      | ok d =>
        simp only [res_bind_ok]
        cases msGe d s.sampling with
        | error e => rfl
        | ok g =>
          cases g
          · rfl
          · simp only [res_bind_ok, if_true, res_pure, Except.map]
            have e2 : ∀ x : Pid Rat, x.kd = 0 → x.onMeasurement = false → ({ x with lastReading := l } : Pid Rat).compute now = x.compute now := by
              intro x h1 h2
              rw [compute_rat, compute_rat]
              simp only [h1, h2, cond_false, zero_mul]
            have e3 := e2 (u.pid { s with input := v }) (by change s.kd / u.a = 0; rw [hd, zero_div]) hm
            rw [u.compute_pid] at e3
            exact congrArg (fun x => Except.ok (true, x)) e3
    simp only [Rescale.op, PID.exec, e1]
    cases h : PID.newReading s v now with
    | error e => exact .inl ⟨e, rfl, rfl⟩
    | ok r =>
      obtain ⟨f, s'⟩ := r
      have hs' : s'.kd = s.kd ∧ s'.onMeasurement = s.onMeasurement := by
        unfold PID.newReading update at h
        obtain ⟨d, -, h⟩ := res_bind h
        obtain ⟨g, -, h⟩ := res_bind h
        cases g <;> (cases h; exact ⟨rfl, rfl⟩)
      refine .inr ⟨s', _, rfl, rfl, ?_⟩
      cases f
      · exact ⟨u.value s'.input, l, rfl, hs'.1.trans hd, hs'.2.trans hm⟩
      · exact ⟨u.value s'.input, u.value s'.lastReading, rfl, hs'.1.trans hd, hs'.2.trans hm⟩
  | setpoint v => exact .inr ⟨_, _, rfl, rfl, i, l, by rw [ht]; rfl, hd, hm⟩
  | tunings kp ki kd m =>
    obtain ⟨rfl, rfl⟩ := ho
    exact Rescale.Alike.tunings i l ht b kp ki

theorem Rescale.Alike.run {u : Rescale} {cfg : PidConfig Rat} {b : Build} (ops : List (PID.Op Rat)) : ∀ {s t : Pid Rat}, u.Alike s t → (∀ o ∈ ops, OnErrorOnly o) →
    Pid.shown (PID.run (u.config cfg) b t (ops.map u.op)) = Pid.shown (PID.run cfg b s ops) := by
  induction ops with
  | nil => intro s t h _; obtain ⟨i, l, ht, -⟩ := h; rw [ht]; rfl
  | cons o ops ih =>
    intro s t h ho
    simp only [List.map_cons, PID.run]
    rcases h.exec (cfg := cfg) (b := b) (ho o List.mem_cons_self) with ⟨e, e1, e2⟩ | ⟨s', t', e1, e2, h'⟩
    · rw [e1, e2]; rfl
    · rw [e1, e2]; exact ih h' fun o h => ho o (List.mem_cons_of_mem _ h)

/-- **C184** for any change of the unit, in exact arithmetic, from construction on, for a controller whose proportional part is set to act on the error and which has no derivative part: once
these and a setpoint are set, the responses are the same after any use. Missing: the other controllers (`C184_first_reading_counterexample`). -/
theorem C184_on_error_partial (u : Rescale) (cfg : PidConfig Rat) (b : Build) (now : Int) (kp ki sp : Rat) (ops : List (PID.Op Rat)) (ho : ∀ o ∈ ops, OnErrorOnly o) :
    Pid.shown (PID.create (u.config cfg) b now >>= fun s => PID.run (u.config cfg) b s (.tunings (u.gain kp) (u.gain ki) 0 false :: .setpoint (u.value sp) :: ops.map u.op)) =
    Pid.shown (PID.create cfg b now >>= fun s => PID.run cfg b s (.tunings kp ki 0 false :: .setpoint sp :: ops)) := by
  set u0 : Rescale := ⟨u.a, 0, u.pos⟩ with hu0
  have hz : u0.value (fzero : Rat) = fzero := by change u.a * 0 + 0 = 0; ring
  have e := u0.create_fresh b now fzero fzero fzero cfg.kp cfg.ki cfg.kd true cfg.reverse
  rw [hz] at e
  unfold PID.create
  change Pid.shown ((Pid.create b now fzero fzero fzero (u0.gain cfg.kp) (u0.gain cfg.ki) (u0.gain cfg.kd) true cfg.reverse >>= _) >>= _) = _
  rw [e]
  cases Pid.create b now fzero fzero fzero cfg.kp cfg.ki cfg.kd true cfg.reverse with
  | error e => rfl
  | ok s =>
    simp only [Except.map, res_bind_ok]
    change Pid.shown ((spnAssert b (decide (cfg.interval > 0)) >>= _) >>= _) = _
    cases spnAssert b (decide (cfg.interval > 0)) with
    | error e => rfl
    | ok _ =>
      simp only [res_bind_ok, res_pure, PID.run]
      have hg : u.gain 0 = 0 := u.gain_zero
      have key : (u0.fresh s).setTunings b (u.gain kp) (u.gain ki) (u.gain 0) false = (s.setTunings b kp ki 0 false).map u0.fresh := u0.tunings_fresh b s kp ki 0 false
      rw [hg] at key
      have k1 : PID.exec (u.config cfg) b (u0.fresh s) (.tunings (u.gain kp) (u.gain ki) 0 false) = (s.setTunings b kp ki 0 false).map u0.fresh := key
      have k2 : PID.exec cfg b s (.tunings kp ki 0 false) = s.setTunings b kp ki 0 false := rfl
      rw [k1, k2]
      cases h : s.setTunings b kp ki 0 false with
      | error e => rfl
      | ok s1 =>
        have hs1 : s1.kd = 0 ∧ s1.onMeasurement = false := by
          simp only [setTunings] at h
          obtain ⟨_, -, h⟩ := res_bind h
          obtain ⟨_, -, h⟩ := res_bind h
          obtain ⟨_, -, h⟩ := res_bind h
          have hz : ∀ q : Rat, (Arith.div (0 : Rat) q : Rat) = 0 := fun q => zero_div q
          have hz' : (Arith.sub (fzero : Rat) (0 : Rat) : Rat) = 0 := by decide +kernel
          cases h
          simp only [hz]
          split <;> simp [negate, hz']
        simp only [Except.map, res_bind_ok, PID.exec]
        exact Rescale.Alike.run ops ⟨u0.value s1.input, s1.lastReading, rfl, hs1⟩ ho

/-- C184 is false with a shift of the scale for a `PID` as it is constructed, in exact arithmetic and for all such controllers: the first reading counts as a change from 0. If it is at the
setpoint, the response is 0 if both are 0, and below 0 if both are above 0. -/
theorem C184_first_reading_counterexample {cfg : PidConfig Rat} {b : Build} {now t : Int} {r : Rat} {s0 s s' : Pid Rat} {f : Bool} (hlo : cfg.lower < 0) (hhi : 0 ≤ cfg.upper) (hkp : 0 < cfg.kp)
    (hkd : 0 ≤ cfg.kd) (hrev : cfg.reverse = false) (hint : 0 < cfg.interval) (h0 : PID.create cfg b now = .ok s0) (h1 : PID.run cfg b s0 [.start, .setpoint r] = .ok s) (h2 : PID.newReading s r t = .ok (true, s')) :
    (r = 0 → s'.output = 0) ∧ (0 < r → s'.output < 0) := by
  obtain ⟨s1, c1, c2⟩ := res_bind h0
  obtain ⟨_, -, c2⟩ := res_bind c2
  cases c2
  obtain ⟨d1, d2, d3, d4, d5, d6⟩ := create_state c1
  have hk : s0.kp = cfg.kp ∧ 0 ≤ s0.kd ∧ s0.onMeasurement = true ∧ s0.input = 0 := by
    simp only [Pid.create, setTunings, hrev] at c1
    obtain ⟨s2, c3, c1⟩ := res_bind c1
    obtain ⟨_, -, c1⟩ := res_bind c1
    obtain ⟨_, -, c3⟩ := res_bind c3
    obtain ⟨_, -, c3⟩ := res_bind c3
    obtain ⟨_, -, c3⟩ := res_bind c3
    cases c3
    cases c1
    refine ⟨rfl, ?_, rfl, rfl⟩
    change 0 ≤ cfg.kd / (((100 : Int) : Rat) / 1000)
    exact div_nonneg hkd (by norm_num)
  obtain ⟨k1, k2, k3, k4⟩ := hk
  have hcl : clamp cfg.lower cfg.upper (0 : Rat) = 0 := by
    simp only [clamp, Arith.lt, decide_eq_true_eq]
    rw [if_neg (by linarith), if_neg (by linarith)]
  have hlim : s0.setLimits cfg.lower cfg.upper = { s0 with lo := cfg.lower, hi := cfg.upper, output := 0, cumulative := 0 } := by
    have hle : Arith.le cfg.upper cfg.lower = false := by
      change decide (cfg.upper ≤ cfg.lower) = false
      simp only [decide_eq_false_iff_not]; linarith
    have e1 : s0.output = (0 : Rat) := d1
    have e2 : s0.cumulative = (0 : Rat) := d6
    simp only [setLimits, hle, Bool.false_eq_true, if_false, e1, e2, hcl]
  have hs : s.kp = cfg.kp ∧ 0 ≤ s.kd ∧ s.onMeasurement = true ∧ s.lastReading = 0 ∧ s.cumulative = 0 ∧ s.lo = cfg.lower ∧ s.hi = cfg.upper ∧ s.setpoint = r := by
    have hrun : (PID.start cfg s0 >>= fun s => .ok { s with setpoint := r }) = Except.ok s := h1
    obtain ⟨s2, h6, h3⟩ := res_bind hrun
    obtain rfl : { s2 with setpoint := r } = s := Except.ok.inj h3
    unfold PID.start at h6
    rw [hlim] at h6
    obtain ⟨s4, h4, h5⟩ := res_bind h6
    obtain rfl : s4.start = s2 := Except.ok.inj h5
    simp only [setSampling] at h4
    obtain ⟨g, -, h4⟩ := res_bind h4
    have hstart : ∀ x : Pid Rat, x.output = 0 → x.lo = cfg.lower → x.hi = cfg.upper → x.start.cumulative = 0 := by
      intro x e1 e2 e3; simp only [Pid.start, e1, e2, e3, hcl]
    cases g
    · cases h4
      exact ⟨k1, k2, k3, k4, hstart _ rfl rfl rfl, rfl, rfl, rfl⟩
    · simp only [if_true, d4] at h4
      cases h4
      refine ⟨k1, ?_, k3, k4, hstart _ rfl rfl rfl, rfl, rfl, rfl⟩
      change 0 ≤ s0.kd / ((Int.tdiv cfg.interval 100 : Int) : Rat)
      exact div_nonneg k2 (by exact_mod_cast Int.tdiv_nonneg hint.le (by norm_num))
  obtain ⟨p1, p2, p3, p4, p5, p6, p7, p8⟩ := hs
  have hc : s' = ({ s with input := r } : Pid Rat).compute t := by
    simp only [PID.newReading, update] at h2
    obtain ⟨d, -, h2⟩ := res_bind h2
    obtain ⟨g, -, h2⟩ := res_bind h2
    cases g <;> cases h2
    rfl
  have ho : s'.output = clamp cfg.lower cfg.upper (clamp cfg.lower cfg.upper (-(cfg.kp * r)) - s.kd * r) := by
    rw [hc, compute_rat]
    simp only [p1, p3, p4, p5, p6, p7, p8, cond_true]
    congr 1
    have : (0 : Rat) + s.ki * (r - r) - cfg.kp * (r - 0) = -(cfg.kp * r) := by ring
    rw [this]; ring
  have neg : ∀ x : Rat, x < 0 → clamp cfg.lower cfg.upper x < 0 := by
    intro x hx
    simp only [clamp, Arith.lt, decide_eq_true_eq]
    split_ifs <;> linarith
  constructor
  · intro hr
    rw [ho, hr, mul_zero, neg_zero, hcl, mul_zero, sub_zero, hcl]
  · intro hr
    have h3 := neg _ (by have := mul_pos hkp hr; linarith : -(cfg.kp * r) < 0)
    rw [ho]
    exact neg _ (by have := mul_nonneg p2 hr.le; linarith)

/-- Celsius to Fahrenheit. -/
def fahrenheit : Rescale := ⟨9 / 5, 32, by norm_num⟩

/-- Millimetres to metres. -/
def metres : Rescale := ⟨1 / 1000, 0, by norm_num⟩

/-- Limits on both sides of 0, the other settings are the defaults. -/
def bothSides : PidConfig Rat := { (PidConfig.default : PidConfig Rat) with lower := -255 }

/-- The response of a controller constructed at time 1000. -/
def responds (cfg : PidConfig Rat) (ops : List (PID.Op Rat)) : Res Rat := Pid.shown (PID.create cfg .debug 1000 >>= fun s => PID.run cfg .debug s ops)

/-- A case of `C184_scale`: two readings in millimetres and in metres. -/
example : responds bothSides [.start, .setpoint 10, .reading 9 1000, .reading 8 1100] = .ok (-15891 / 100) ∧
    responds (metres.config bothSides) [.start, .setpoint (1 / 100), .reading (9 / 1000) 1000, .reading (8 / 1000) 1100] = .ok (-15891 / 100) := by decide +kernel

/-- A case of `C184_on_error_partial`: two readings in Celsius and in Fahrenheit, and `C184_backend`. -/
example : responds bothSides [.tunings 2 1 0 false, .setpoint 20, .start, .reading 19 1000, .reading 18 1100] = .ok (43 / 10) ∧
    responds (fahrenheit.config bothSides) [.tunings (10 / 9) (5 / 9) 0 false, .setpoint 68, .start, .reading (331 / 5) 1000, .reading (322 / 5) 1100] = .ok (43 / 10) ∧
    Pid.shown (Pid.create .debug 1000 19 0 20 2 1 3 true false >>= fun s => s.run .debug [.start, .limits (-255) 255, .input 18, .update 1100]) = .ok (161 / 5) ∧
    Pid.shown (Pid.create .debug 1000 (331 / 5) 0 68 (10 / 9) (5 / 9) (5 / 3) true false >>= fun s => s.run .debug [.start, .limits (-255) 255, .input (322 / 5), .update 1100]) = .ok (161 / 5) := by
  decide +kernel

/-- A case of `C184_first_reading_counterexample`: at a setpoint of 20 the first reading of 20 gives the lower limit, at 0 a reading of 0 gives 0. -/
example : responds bothSides [.start, .setpoint 20, .reading 20 1000] = .ok (-255) ∧ responds bothSides [.start, .setpoint 0, .reading 0 1000] = .ok 0 := by decide +kernel

end Spine
