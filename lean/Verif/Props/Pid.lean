import Verif.Proofs.Pid
/-!
# PID controller: C44 to C46, C76 to C80
-/

namespace Spine
open Pid

variable {F : Type} [Arith F]

/-! ## C44: output limits -/

/-- C44 for `PIDController`: after any history, the output is inside the limits in force, in any arithmetic whose comparisons are
lawful. The output variable has to start inside the default limits, and the user does not write to it. -/
theorem C44_controller [LawfulArith F] {b : Build} {now : Int} {i o sp kp ki kd : F} {m r : Bool} {s0 s : Pid F}
    (h255 : Arith.lt (Arith.ofRat 255 : F) (Arith.ofRat 0) = false) (ho : Inside o (Arith.ofRat 0) (Arith.ofRat 255))
    (h0 : Pid.create b now i o sp kp ki kd m r = .ok s0) {ops : List (Pid.Op F)} (h : s0.run b ops = .ok s) :
    Inside s.output (limitsAfter (Arith.ofRat 0, Arith.ofRat 255) ops).1 (limitsAfter (Arith.ofRat 0, Arith.ofRat 255) ops).2 := by
  obtain ⟨e1, e2, e3, -⟩ := create_state h0
  have hh : Held s0 := by
    unfold Held
    rw [e1, e2, e3]
    exact ⟨h255, ho⟩
  obtain ⟨⟨-, h1⟩, h2⟩ := hh.run ops h
  rw [e2, e3] at h2
  rw [← h2]
  exact h1

theorem pid_held [LawfulArith F] {b : Build} {now : Int} {cfg : PidConfig F} {s0 : Pid F}
    (h255 : Arith.lt (Arith.ofRat 255 : F) (Arith.ofRat 0) = false) (h0 : PID.create cfg b now = .ok s0) :
    Held s0 ∧ s0.lo = Arith.ofRat 0 ∧ s0.hi = Arith.ofRat 255 := by
  obtain ⟨s1, h1, h0⟩ := res_bind h0
  obtain ⟨_, -, h0⟩ := res_bind h0
  cases h0
  obtain ⟨e1, e2, e3, -⟩ := create_state h1
  refine ⟨?_, e2, e3⟩
  unfold Held
  rw [e1, e2, e3]
  exact ⟨h255, h255, LawfulArith.irrefl _⟩

/-- C44 for `PID`: from `initialize()` on, whatever the readings, gains and setpoints, the output is inside the configured limits,
provided these are in order (`initialize` ignores them otherwise). -/
theorem C44_pid [LawfulArith F] {b : Build} {now : Int} {cfg : PidConfig F} {s0 s : Pid F}
    (h255 : Arith.lt (Arith.ofRat 255 : F) (Arith.ofRat 0) = false) (hcfg : Arith.le cfg.upper cfg.lower = false)
    (h0 : PID.create cfg b now = .ok s0) {pre post : List (PID.Op F)} (h : PID.run cfg b s0 (pre ++ .start :: post) = .ok s) :
    Inside s.output cfg.lower cfg.upper := by
  obtain ⟨hh, e2, e3⟩ := pid_held h255 h0
  rw [PID.run_eq] at h
  obtain ⟨⟨-, h1⟩, h2⟩ := hh.run _ h
  have e : limitsAfter (s0.lo, s0.hi) ((pre ++ PID.Op.start :: post).flatMap (PID.ops cfg)) = (cfg.lower, cfg.upper) := by
    rw [List.flatMap_append, List.flatMap_cons, limitsAfter_append, limitsAfter_append]
    simp only [PID.ops, limitsAfter, hcfg, Bool.false_eq_true, if_false]
    exact limitsAfter_pid hcfg post
  rw [e] at h2
  simp only [Prod.mk.injEq] at h2
  rw [h2.1, h2.2] at h1
  exact h1

/-- C44 in IEEE single precision: the output is NaN or between the limits. -/
theorem C44_ieee {b : Build} {now : Int} {cfg : PidConfig Fl} {s0 s : Pid Fl} (hcfg : Fl.lt cfg.lower cfg.upper = true)
    (h0 : PID.create cfg b now = .ok s0) {pre post : List (PID.Op Fl)} (h : PID.run cfg b s0 (pre ++ .start :: post) = .ok s) :
    s.output = .nan ∨ (Fl.le cfg.lower s.output = true ∧ Fl.le s.output cfg.upper = true) := by
  have hu : Arith.le cfg.upper cfg.lower = false := by
    by_contra hc
    have := LawfulArith.not_lt _ _ (by simpa using hc : Arith.le cfg.upper cfg.lower = true)
    rw [show Arith.lt cfg.lower cfg.upper = Fl.lt cfg.lower cfg.upper from rfl, hcfg] at this
    cases this
  obtain ⟨h1, h2⟩ := C44_pid (by decide +kernel) hu h0 h
  change Fl.lt _ _ = false at h1 h2
  generalize s.output = o at *
  cases hl : cfg.lower <;> cases hh : cfg.upper <;> cases o <;> simp_all [Fl.lt, Fl.le]

/-- A run with a lower limit of 10, an upper limit of 60 and readings that push against both. -/
example : (do
    let cfg : PidConfig Rat := { PidConfig.default with lower := 10, upper := 60 }
    let s ← PID.create cfg .debug 1000
    let s1 ← PID.run cfg .debug s [.start, .setpoint 50, .reading 20 1000]
    let s2 ← PID.run cfg .debug s1 [.reading 10 1100]
    let s3 ← PID.run cfg .debug s2 [.reading 12 1200]
    return [s1.output, s2.output, s3.output] : Res (List Rat)) = .ok [10, 60, 957 / 50] := by decide +kernel

/-- Limits that are not in order are ignored by `initialize`: the output goes above the configured upper limit. -/
theorem C44_order_counterexample : (do
    let cfg : PidConfig Rat := { PidConfig.default with lower := 50, upper := 40 }
    let s ← PID.create cfg .debug 1000
    let s ← PID.run cfg .debug s [.start, .setpoint 10000, .reading 0 1000]
    return s.output : Res Rat) = .ok 255 := by decide +kernel

/-! ## C45: sampling -/

/-- C45: a reading that does not lead to a computation changes nothing but the stored reading. -/
theorem C45_unchanged {s s' : Pid F} {v : F} {now : Int} (h : PID.newReading s v now = .ok (false, s')) : s' = { s with input := v } :=
  newReading_false h

/-- C45: over any readings in order of time, computations are at least one sampling period apart (up to the rounding of the
times), and every reading that is not used comes less than one period (up to rounding) after one that was, or after the time the
controller starts from. Missing: exactness above 2^24 ms. -/
theorem C45_sampling_partial {s : Pid F} {t1 : Int} (h1 : |s.lastTime| ≤ 2 ^ 61) (h2 : |t1| ≤ 2 ^ 61) (h3 : |s.sampling| ≤ 2 ^ 62)
    {rs : List (Int × F)} (ht : Times s.lastTime rs t1) :
    ∃ fs s', PID.readings s rs = .ok (fs, s') ∧ fs.length = rs.length ∧
      (s.lastTime :: computedAt (rs.map Prod.fst) fs).IsChain (fun a c => s.sampling - |s.sampling| / 2 ^ 24 - |a| / 2 ^ 24 ≤ c - a) ∧
      ∀ (t : Int) (v : F), Times s.lastTime (rs ++ [(t, v)]) t1 →
        ∀ s'', PID.readings s (rs ++ [(t, v)]) = .ok (fs ++ [false], s'') →
          ∃ a ∈ s.lastTime :: computedAt (rs.map Prod.fst) fs, t - a < s.sampling + |s.sampling| / 2 ^ 24 + |a| / 2 ^ 24 := by
  obtain ⟨fs, s', e1, e2, e3, e4, e5, e6, e7⟩ := readings_spec rs s t1 h1 h2 h3 ht
  refine ⟨fs, s', e1, e2, e7.imp fun a c h => ?_, ?_⟩
  · have b1 := near_bound a
    have b2 := near_bound s.sampling
    rw [abs_le] at b1 b2
    omega
  · intro t v ht' s'' hr
    have hst : s.lastTime ≤ t1 := ((ht'.2 (t, v) (by simp)).1).trans (ht'.2 (t, v) (by simp)).2
    have hlt := e5 hst
    have hlb : |s'.lastTime| ≤ 2 ^ 61 := by rw [abs_le] at *; omega
    have htb : |t| ≤ 2 ^ 61 := by
      have := ht'.2 (t, v) (by simp)
      simp only at this
      rw [abs_le] at *; omega
    refine ⟨s'.lastTime, ?_, ?_⟩
    · rw [e4]
      cases hc : computedAt (rs.map Prod.fst) fs with
      | nil => simp
      | cons a l => rw [List.getLastD_cons]; exact List.mem_cons_of_mem _ List.getLastD_mem_cons
    · rw [readings_append, e1, res_bind_ok] at hr
      simp only [PID.readings, newReading_pid (v := v) hlb htb (e3 ▸ h3), res_bind_ok, res_pure] at hr
      by_cases hd : near s'.sampling ≤ t - near s'.lastTime
      · simp [hd] at hr
      · have b1 := near_bound s'.lastTime
        have b2 := near_bound s'.sampling
        rw [abs_le] at b1 b2
        rw [← e3]
        omega

/-- Readings every 40 ms with a sampling time of 100 ms. -/
example : (do
    let s ← PID.create (PidConfig.default : PidConfig Rat) .debug 1000
    return (← PID.readings s [(1000, 1), (1040, 2), (1080, 3), (1120, 4), (1160, 5)]).1 : Res (List Bool)) = .ok [true, false, false, true, false] := by
  decide +kernel

/-- C45 above 2^24 ms: a computation after 99 ms instead of 100. -/
theorem C45_rounding_counterexample : (do
    let s ← PID.create (PidConfig.default : PidConfig Rat) .debug 16777217
    return (← PID.readings s [(16777217, 1), (16777316, 2)]).1 : Res (List Bool)) = .ok [true, true] := by
  decide +kernel

/-! ## C46: changing the sampling time -/

/-- The integral gain per second. -/
def integralGain (s : Pid Rat) : Rat := s.ki / (s.sampling / 1000)

/-- The derivative gain in seconds. -/
def derivativeGain (s : Pid Rat) : Rat := s.kd * (s.sampling / 1000)

/-- C46 in exact arithmetic, for a new sampling time that is a multiple of the old one. Missing: all other sampling times (see
`C46_only_multiples`, `C46_shorter_counterexample`). -/
theorem C46_multiple_partial {s : Pid Rat} {t : Int} (h0 : 0 < s.sampling) (ht : 0 < t) (hd : s.sampling ∣ t) :
    ∃ s', s.setSampling t = .ok s' ∧ s'.sampling = t ∧ integralGain s' = integralGain s ∧ derivativeGain s' = derivativeGain s ∧ s'.kp = s.kp := by
  obtain ⟨k, rfl⟩ := hd
  have hk : 0 < k := by
    by_contra hc
    have := mul_nonpos_of_nonneg_of_nonpos h0.le (not_lt.mp hc)
    omega
  have hq : Int.tdiv (s.sampling * k) s.sampling = k := Int.mul_tdiv_cancel_left _ (by omega)
  refine ⟨{ s with ki := s.ki * (k : Rat), kd := s.kd / (k : Rat), sampling := s.sampling * k }, ?_, rfl, ?_, ?_, rfl⟩
  · simp only [setSampling, msGt_near (show |(0 : Int)| ≤ 2 ^ 62 by norm_num), near_zero, res_bind_ok, gt_iff_lt, decide_eq_true_eq, ht, if_true]
    rw [if_neg (by omega), hq]
    rfl
  · have h1 : (s.sampling : Rat) ≠ 0 := by exact_mod_cast h0.ne'
    have h2 : (k : Rat) ≠ 0 := by exact_mod_cast hk.ne'
    simp only [integralGain, Int.cast_mul]
    field_simp
  · have h1 : (s.sampling : Rat) ≠ 0 := by exact_mod_cast h0.ne'
    have h2 : (k : Rat) ≠ 0 := by exact_mod_cast hk.ne'
    simp only [derivativeGain, Int.cast_mul]
    field_simp

/-- C46 is false for every new sampling time that is not a multiple of the old one: the integral gain per second changes. -/
theorem C46_only_multiples {s s' : Pid Rat} {t : Int} (h0 : 0 < s.sampling) (ht : 0 < t) (hki : s.ki ≠ 0) (h : s.setSampling t = .ok s')
    (hg : integralGain s' = integralGain s) : s.sampling ∣ t := by
  simp only [setSampling, msGt_near (show |(0 : Int)| ≤ 2 ^ 62 by norm_num), near_zero, res_bind_ok, gt_iff_lt, decide_eq_true_eq, ht, if_true] at h
  rw [if_neg (by omega)] at h
  cases h
  simp only [integralGain, Arith.mul, Arith.ofRat] at hg
  have h1 : (s.sampling : Rat) ≠ 0 := by exact_mod_cast h0.ne'
  have h2 : (t : Rat) ≠ 0 := by exact_mod_cast ht.ne'
  field_simp at hg
  refine ⟨Int.tdiv t s.sampling, ?_⟩
  have : ((Int.tdiv t s.sampling : Int) : Rat) * s.sampling = t := by linarith
  rw [mul_comm]
  exact_mod_cast this.symm

example : (({ kp := 1, ki := 3, kd := 5, reverse := false, input := 0, output := 0, setpoint := 0, lastTime := 0, cumulative := 0, lastReading := 0, sampling := 100, lo := 0, hi := 255, onMeasurement := true } : Pid Rat).setSampling 300).map (fun s => (s.ki, s.kd)) =
    .ok (9, 5 / 3) := by decide +kernel

/-- C46 with the default gains and a sampling interval of 50 ms instead of the default 100, in single precision: `initialize()` sets
the integral gain to 0 and the derivative gain to infinity, and the first reading gives an output that is not a number; `response()`
then stops a debug build. -/
theorem C46_shorter_counterexample : (do
    let cfg : PidConfig Fl := { PidConfig.default with interval := 50 }
    let s ← PID.create cfg .debug 1000
    let s ← PID.run cfg .debug s [.start]
    let s' ← PID.run cfg .debug s [.reading (Fl.ofRat 0) 1000]
    return (s.ki, s.kd, s'.output, PID.response .debug (· == Fl.nan) s') : Res (Fl × Fl × Fl × Res Fl)) =
    .ok (.num false 0, .inf false, .nan, .error .assertFailed) := by decide +kernel

/-! ## C76: an invalid reading -/

/-- Once NaN has got into the controller it stays. -/
theorem poisoned_exec {b : Build} {s s' : Pid Fl} {op : Pid.Op Fl} (h : s.cumulative = .nan ∧ s.output = .nan) (he : s.exec b op = .ok s') :
    s'.cumulative = .nan ∧ s'.output = .nan := by
  have hc : ∀ lo hi : Fl, clamp lo hi Fl.nan = .nan := by
    intro lo hi
    have e1 : Arith.lt hi Fl.nan = false := by cases hi <;> rfl
    have e2 : Arith.lt Fl.nan lo = false := by cases lo <;> rfl
    simp [clamp, e1, e2]
  have ha : ∀ x : Fl, Arith.add Fl.nan x = .nan := fun x => by cases x <;> rfl
  have ha' : ∀ x : Fl, Arith.add x Fl.nan = .nan := fun x => by cases x <;> rfl
  have hs : ∀ x : Fl, Arith.sub Fl.nan x = .nan := fun x => by cases x <;> rfl
  cases op with
  | input v => cases he; exact h
  | setpoint v => cases he; exact h
  | update now =>
    simp only [Pid.exec, update] at he
    obtain ⟨x, hx, h2⟩ := res_bind he
    cases h2
    obtain ⟨d, -, hx⟩ := res_bind hx
    obtain ⟨c, -, hx⟩ := res_bind hx
    split at hx <;> cases hx
    · simp only [compute, h.1, ha, hs, ha', hc, ite_self, and_self]
    · exact h
  | tunings kp ki kd m =>
    simp only [Pid.exec, setTunings] at he
    obtain ⟨_, -, he⟩ := res_bind he
    obtain ⟨_, -, he⟩ := res_bind he
    obtain ⟨_, -, he⟩ := res_bind he
    cases he
    split <;> exact h
  | direction r =>
    cases he
    simp only [setDirection]
    split <;> exact h
  | sampling t =>
    simp only [Pid.exec, setSampling] at he
    obtain ⟨_, -, he⟩ := res_bind he
    split at he
    · split at he
      · cases he
      · cases he; exact h
    · cases he; exact h
  | limits lo hi =>
    cases he
    simp only [setLimits]
    split
    · exact h
    · simp only [h.1, h.2, hc, and_self]
  | start => cases he; exact ⟨by simp only [Pid.start, h.2, hc], h.2⟩

/-- C76 is false in single precision: after one computation with a NaN reading the output is NaN for ever, whatever the user does
with the controller, `initialize()` included. -/
theorem C76_forever_counterexample {b : Build} {s s1 s2 : Pid Fl} {now : Int} (h : PID.newReading s .nan now = .ok (true, s1)) {ops : List (Pid.Op Fl)}
    (hr : s1.run b ops = .ok s2) : s2.output = .nan := by
  have hp : s1.cumulative = .nan ∧ s1.output = .nan := by
    rw [newReading_true h]
    have hc : ∀ lo hi : Fl, clamp lo hi Fl.nan = .nan := by
      intro lo hi
      have e1 : Arith.lt hi Fl.nan = false := by cases hi <;> rfl
      have e2 : Arith.lt Fl.nan lo = false := by cases lo <;> rfl
      simp [clamp, e1, e2]
    have ha' : ∀ x : Fl, Arith.add x Fl.nan = .nan := fun x => by cases x <;> rfl
    have hs : ∀ x : Fl, Arith.sub Fl.nan x = .nan := fun x => by cases x <;> rfl
    have hs' : ∀ x : Fl, Arith.sub x Fl.nan = .nan := fun x => by cases x <;> rfl
    have hm : ∀ x : Fl, Arith.mul x Fl.nan = .nan := fun x => by cases x <;> rfl
    simp only [compute, ha', hs, hs', hm, hc, ite_self, and_self]
  have : ∀ (ops : List (Pid.Op Fl)) (s1 : Pid Fl), (s1.cumulative = .nan ∧ s1.output = .nan) → s1.run b ops = .ok s2 → s2.output = .nan := by
    intro ops
    induction ops with
    | nil => intro s1 hp hr; cases hr; exact hp.2
    | cons op ops ih =>
      intro s1 hp hr
      obtain ⟨s3, h3, h4⟩ := res_bind hr
      exact ih s3 (poisoned_exec hp h3) h4
  exact this ops s1 hp hr

/-- C76, the part that holds: an invalid reading that comes between two computations has no effect once the next reading has come. -/
theorem C76_skipped_partial {s s1 : Pid F} {v w : F} {now now' : Int} (h : PID.newReading s v now = .ok (false, s1)) :
    PID.newReading s1 w now' = PID.newReading s w now' := by
  rw [newReading_false h]
  rfl

/-- The poisoning happens: a valid reading, NaN, and three valid readings. -/
example : (do
    let cfg : PidConfig Fl := PidConfig.default
    let s ← PID.create cfg .debug 1000
    let s ← PID.run cfg .debug s [.start, .reading (Fl.ofRat 1) 1000]
    let (f, s1) ← PID.newReading s .nan 1100
    let s2 ← PID.run cfg .debug s1 [.reading (Fl.ofRat 1) 1200, .start, .reading (Fl.ofRat 2) 1300]
    return (s.output, f, s2.output) : Res (Fl × Bool × Fl)) = .ok (.num false 0, true, .nan) := by decide +kernel

/-! ## C77: reading back the tunings -/

/-- C77 is false: `tunings()` of a controller with the default gains reports an integral gain of 0.03 instead of 0.3 and a
derivative gain of 1 instead of 0.1; setting the tunings to what was read changes them again. -/
theorem C77_tunings_counterexample : (do
    let s ← PID.create (PidConfig.default : PidConfig Rat) .debug 1000
    let s' ← PID.run PidConfig.default .debug s [.tunings s.kp s.ki s.kd false]
    return [s.kp, s.ki, s.kd, s'.kp, s'.ki, s'.kd] : Res (List Rat)) = .ok [20, 3 / 100, 1, 20, 3 / 1000, 10] := by decide +kernel

/-- C77, what is read: the gains per sample, with the sign of the direction; only the proportional gain of a forward controller is
what was set. -/
theorem C77_scaled_partial {b : Build} {s s' : Pid Rat} {kp ki kd : Rat} {m : Bool} (h : s.setTunings b kp ki kd m = .ok s') (h0 : 0 < s.sampling) :
    s'.kp = (if s.reverse then -1 else 1) * kp ∧ integralGain s' = (if s.reverse then -1 else 1) * ki ∧
    derivativeGain s' = (if s.reverse then -1 else 1) * kd := by
  simp only [setTunings] at h
  obtain ⟨_, -, h⟩ := res_bind h
  obtain ⟨_, -, h⟩ := res_bind h
  obtain ⟨_, -, h⟩ := res_bind h
  cases h
  have h1 : (s.sampling : Rat) ≠ 0 := by exact_mod_cast h0.ne'
  cases hr : s.reverse <;> simp [negate, integralGain, derivativeGain, fzero, Arith.sub, Arith.mul, Arith.div, Arith.ofRat] <;>
    constructor <;> field_simp

/-- The gains are those given, with the default sampling time and after a change of it. -/
example : (do
    let s ← PID.create (PidConfig.default : PidConfig Rat) .debug 1000
    return [integralGain s, derivativeGain s] : Res (List Rat)) = .ok [3 / 10, 1 / 10] := by decide +kernel

/-! ## C78: proportionality -/

/-- C78 is false: the proportionality in the configuration has no effect at all; the controller starts with proportional on
measurement, although the configuration's default is on error. -/
theorem C78_ignored_counterexample {b : Build} {cfg : PidConfig F} {now : Int} {s : Pid F} (m : Bool) (h : PID.create cfg b now = .ok s) :
    s.onMeasurement = true ∧ PID.create { cfg with onMeasurement := m } b now = .ok s := by
  refine ⟨?_, h⟩
  obtain ⟨s1, h1, h⟩ := res_bind h
  obtain ⟨_, -, h⟩ := res_bind h
  cases h
  obtain ⟨s2, h2, h1⟩ := res_bind h1
  obtain ⟨_, -, h1⟩ := res_bind h1
  cases h1
  simp only [setTunings] at h2
  obtain ⟨_, -, h2⟩ := res_bind h2
  obtain ⟨_, -, h2⟩ := res_bind h2
  obtain ⟨_, -, h2⟩ := res_bind h2
  cases h2
  split <;> rfl

/-- C78, the part that holds: the proportionality given to `set_tunings` is used. -/
theorem C78_tunings_partial {b : Build} {s s' : Pid F} {kp ki kd : F} {m : Bool} (h : s.setTunings b kp ki kd m = .ok s') : s'.onMeasurement = m := by
  simp only [setTunings] at h
  obtain ⟨_, -, h⟩ := res_bind h
  obtain ⟨_, -, h⟩ := res_bind h
  obtain ⟨_, -, h⟩ := res_bind h
  cases h
  split <;> rfl

/-- The two settings give different outputs: 20 on error, 0 on measurement. -/
example : (do
    let cfg : PidConfig Rat := { PidConfig.default with ki := 0, kd := 0 }
    let s ← PID.create cfg .debug 1000
    let s1 ← PID.run cfg .debug s [.start, .setpoint 1, .reading 0 1000]
    let s2 ← PID.run cfg .debug s [.start, .tunings 20 0 0 false, .setpoint 1, .reading 0 1000]
    return [s1.output, s2.output] : Res (List Rat)) = .ok [0, 20] := by decide +kernel

/-! ## C79: the control law -/

/-- C79 in exact arithmetic: as long as neither the carried part nor the output reaches a limit, the output after any series of
readings, each of which leads to a computation, is that of the discrete PID law. -/
theorem C79_law {s s' : Pid Rat} {rs : List (Int × Rat)} {fs : List Bool} (h : PID.readings s rs = .ok (fs, s')) (hf : ∀ f ∈ fs, f = true) (hne : rs ≠ [])
    (hc : ∀ p, p <+: rs.map Prod.snd → p ≠ [] → s.lo ≤ carried s.onMeasurement s.kp s.ki s.setpoint s.cumulative s.lastReading p ∧
      carried s.onMeasurement s.kp s.ki s.setpoint s.cumulative s.lastReading p ≤ s.hi)
    (ho : s.lo ≤ pidLaw s.onMeasurement s.kp s.ki s.kd s.setpoint s.cumulative s.lastReading (rs.map Prod.snd) ∧
      pidLaw s.onMeasurement s.kp s.ki s.kd s.setpoint s.cumulative s.lastReading (rs.map Prod.snd) ≤ s.hi) :
    s'.output = pidLaw s.onMeasurement s.kp s.ki s.kd s.setpoint s.cumulative s.lastReading (rs.map Prod.snd) :=
  law_run rs s s' fs h hf hc (fun _ => ho) hne

/-- After `initialize()` the law starts from the output and the reading of that moment. -/
theorem C79_start {s : Pid F} [LawfulArith F] (h : Inside s.output s.lo s.hi) : s.start.cumulative = s.output ∧ s.start.lastReading = s.input := by
  simp [Pid.start, clamp, h.1, h.2]

/-- At the limits: each computation adds to the carried part and cuts it to the limits, and cuts the output to the limits. -/
theorem C79_saturation {s s' : Pid Rat} {v : Rat} {now : Int} (h : PID.newReading s v now = .ok (true, s')) (hl : s.lo ≤ s.hi) :
    s'.cumulative = max s.lo (min s.hi (carried s.onMeasurement s.kp s.ki s.setpoint s.cumulative s.lastReading [v])) ∧
    s'.output = max s.lo (min s.hi ((if s.onMeasurement then 0 else s.kp * (s.setpoint - v)) + s'.cumulative - s.kd * (v - s.lastReading))) := by
  have hcl : ∀ x : Rat, clamp s.lo s.hi x = max s.lo (min s.hi x) := by
    intro x
    simp only [clamp, Arith.lt, decide_eq_true_eq]
    split
    · next h => rw [min_eq_left h.le, max_eq_right hl]
    · next h =>
      rw [min_eq_right (not_lt.mp h)]
      split
      · next h => rw [max_eq_left h.le]
      · next h => rw [max_eq_right (not_lt.mp h)]
  rw [newReading_true h]
  simp only [compute, hcl, carried, errorSum, Arith.add, Arith.sub, Arith.mul, Arith.ofRat, fzero]
  constructor
  · cases s.onMeasurement <;> simp
  · cases s.onMeasurement <;> simp [add_sub_assoc]

/-- Both limits are reached: an error of 1000 with `Ki = 1`, and then one of -5000. -/
example : (do
    let s : Pid Rat := { kp := 2, ki := 1, kd := 0, reverse := false, input := 0, output := 0, setpoint := 1000, lastTime := 900, cumulative := 0, lastReading := 0, sampling := 100, lo := 0, hi := 255, onMeasurement := false }
    let (f, s1) ← PID.newReading s 0 1000
    let (g, s2) ← PID.newReading s1 6000 1100
    return (f, g, [s1.cumulative, s1.output, s2.cumulative, s2.output]) : Res (Bool × Bool × List Rat)) = .ok (true, true, [255, 255, 0, 0]) := by decide +kernel

/-- The law with `Kp = 2`, `Ki = 1` per sample, `Kd = 3` and setpoint 10: readings 4 and 5 after 4. -/
example : (do
    let s : Pid Rat := { kp := 2, ki := 1, kd := 3, reverse := false, input := 4, output := 7, setpoint := 10, lastTime := 900, cumulative := 7, lastReading := 4, sampling := 100, lo := 0, hi := 255, onMeasurement := false }
    let (fs, s') ← PID.readings s [(1000, 4), (1100, 5)]
    return (fs, s'.output, pidLaw false 2 1 3 10 7 4 [4, 5], pidLaw true 2 1 3 10 7 4 [4, 5]) : Res (List Bool × Rat × Rat × Rat)) =
    .ok ([true, true], 25, 25, 13) := by decide +kernel

/-! ## C80: direction -/

/-- C80: setting the tunings and then the direction is the same as the other way round, in any arithmetic. -/
theorem C80_order {b : Build} {s s1 s2 : Pid F} {kp ki kd : F} {m : Bool} (hr : s.reverse = false) (h1 : s.setTunings b kp ki kd m = .ok s1)
    (h2 : (s.setDirection true).setTunings b kp ki kd m = .ok s2) : s1.setDirection true = s2 := by
  simp only [setTunings] at h1 h2
  obtain ⟨_, -, h1⟩ := res_bind h1
  obtain ⟨_, -, h1⟩ := res_bind h1
  obtain ⟨_, -, h1⟩ := res_bind h1
  cases h1
  obtain ⟨_, -, h2⟩ := res_bind h2
  obtain ⟨_, -, h2⟩ := res_bind h2
  obtain ⟨_, -, h2⟩ := res_bind h2
  cases h2
  simp [setDirection, hr, negate]

/-- C80: reversing changes the sign of the three gains, in exact arithmetic. -/
theorem C80_sign {s : Pid Rat} {r : Bool} (h : r ≠ s.reverse) :
    (s.setDirection r).kp = -s.kp ∧ (s.setDirection r).ki = -s.ki ∧ (s.setDirection r).kd = -s.kd ∧ (s.setDirection r).reverse = r := by
  have : (r != s.reverse) = true := by simpa using h
  simp [setDirection, this, negate, fzero, Arith.sub, Arith.ofRat]

/-- The direction and the proportional gain last set by a history. -/
def lastSet : Bool × Rat → List (Pid.Op Rat) → Bool × Rat
  | p, [] => p
  | p, .tunings kp _ _ _ :: ops => lastSet (p.1, kp) ops
  | p, .direction r :: ops => lastSet (r, p.2) ops
  | p, _ :: ops => lastSet p ops

/-- The sign of a direction. -/
def signOf (reverse : Bool) : Rat := if reverse then -1 else 1

/-- Integral and derivative gain have the sign of the direction. -/
def Signed (s : Pid Rat) : Prop := 0 ≤ signOf s.reverse * s.ki ∧ 0 ≤ signOf s.reverse * s.kd ∧ 0 < s.sampling

theorem msGt_pos {t : Int} {c : Bool} (h : msGt t 0 = .ok c) : c = decide (0 < t) := by
  rw [msGt_near (by norm_num)] at h
  cases h
  rw [near_eq (by norm_num)]

theorem signed_exec {s s' : Pid Rat} {op : Pid.Op Rat} (h : s.exec .debug op = .ok s') (hs : Signed s) : Signed s' := by
  obtain ⟨h1, h2, h3⟩ := hs
  cases op with
  | input v => cases h; exact ⟨h1, h2, h3⟩
  | setpoint v => cases h; exact ⟨h1, h2, h3⟩
  | start => cases h; exact ⟨h1, h2, h3⟩
  | limits lo hi => cases h; unfold setLimits; split <;> exact ⟨h1, h2, h3⟩
  | direction r =>
    cases h
    unfold setDirection
    split
    · next hc =>
      refine ⟨?_, ?_, h3⟩ <;> revert h1 h2 hc <;> cases r <;> cases s.reverse <;>
        simp +contextual [signOf, negate, fzero, Arith.sub, Arith.ofRat]
    · exact ⟨h1, h2, h3⟩
  | update now =>
    obtain ⟨⟨f, u⟩, h4, h⟩ := res_bind h
    cases h
    simp only [Pid.update] at h4
    obtain ⟨a, -, h4⟩ := res_bind h4
    obtain ⟨c, -, h4⟩ := res_bind h4
    split at h4 <;> cases h4 <;> exact ⟨h1, h2, h3⟩
  | tunings kp ki kd m =>
    simp only [exec, setTunings] at h
    obtain ⟨_, ha, h⟩ := res_bind h
    obtain ⟨c, -, h⟩ := res_bind h
    obtain ⟨_, -, h⟩ := res_bind h
    cases h
    have hp : (0 : Rat) < s.sampling := by exact_mod_cast h3
    have ha' : (Arith.le fzero kp && Arith.le fzero ki && Arith.le fzero kd) = true := by
      cases hb : (Arith.le fzero kp && Arith.le fzero ki && Arith.le fzero kd) with
      | true => rfl
      | false => rw [hb, spnAssert_debug_false] at ha; cases ha
    simp only [Bool.and_eq_true, Arith.le, fzero, Arith.ofRat] at ha'
    obtain ⟨⟨-, a1⟩, a2⟩ := ha'
    have a1 : 0 ≤ ki := of_decide_eq_true a1
    have a2 : 0 ≤ kd := of_decide_eq_true a2
    have q1 : 0 ≤ ki * (s.sampling / 1000) := by positivity
    have q2 : 0 ≤ kd / (s.sampling / 1000) := by positivity
    cases hr : s.reverse <;>
      simp only [Bool.false_eq_true, if_true, if_false, Signed, signOf, negate, fzero, Arith.sub, Arith.mul, Arith.div, Arith.ofRat, hr]
    · exact ⟨by linarith, by linarith, h3⟩
    · exact ⟨by linarith, by linarith, h3⟩
  | sampling t =>
    simp only [exec, setSampling] at h
    obtain ⟨c, hc, h⟩ := res_bind h
    have := msGt_pos hc
    split at h
    · next hcc =>
      rw [hcc] at this
      have ht : 0 < t := by simpa using this.symm
      rw [if_neg h3.ne'] at h
      cases h
      have hq : (0 : Rat) ≤ (Int.tdiv t s.sampling : Int) := by exact_mod_cast Int.tdiv_nonneg ht.le h3.le
      refine ⟨?_, ?_, ht⟩
      · simp only [Arith.mul, Arith.ofRat]
        have := mul_nonneg h1 hq
        linarith
      · simp only [Arith.div, Arith.ofRat]
        have := div_nonneg h2 hq
        rw [mul_div_assoc] at this
        exact this
    · cases h; exact ⟨h1, h2, h3⟩

/-- C80 for whole histories of any operations, in exact arithmetic and with assertions: the direction is the one last set, the
proportional gain is the one last set with the sign of the direction, and the other gains have that sign too. -/
theorem C80_history {ops : List (Pid.Op Rat)} : ∀ {s s' : Pid Rat} {k : Rat}, s.run .debug ops = .ok s' → Signed s → s.kp = signOf s.reverse * k →
    s'.reverse = (lastSet (s.reverse, k) ops).1 ∧ s'.kp = signOf (lastSet (s.reverse, k) ops).1 * (lastSet (s.reverse, k) ops).2 ∧ Signed s' := by
  induction ops with
  | nil => intro s s' k h hs hk; cases h; exact ⟨rfl, hk, hs⟩
  | cons op ops ih =>
    intro s s' k h hs hk
    rw [run] at h
    obtain ⟨u, h1, h⟩ := res_bind h
    have hu := signed_exec h1 hs
    have step : u.reverse = (lastSet (s.reverse, k) [op]).1 ∧ u.kp = signOf u.reverse * (lastSet (s.reverse, k) [op]).2 := by
      cases op with
      | input v => cases h1; exact ⟨rfl, hk⟩
      | setpoint v => cases h1; exact ⟨rfl, hk⟩
      | start => cases h1; exact ⟨rfl, hk⟩
      | limits lo hi => cases h1; unfold setLimits; split <;> exact ⟨rfl, hk⟩
      | direction r =>
        cases h1
        unfold setDirection
        split
        · next hc =>
          refine ⟨rfl, ?_⟩
          revert hk hc
          cases r <;> cases s.reverse <;> simp [lastSet, signOf, negate, fzero, Arith.sub, Arith.ofRat]
          · intro h; linarith
        · next hc =>
          have : r = s.reverse := by simpa using hc
          exact ⟨this.symm, hk⟩
      | update now =>
        obtain ⟨⟨f, v⟩, h4, h1⟩ := res_bind h1
        cases h1
        simp only [Pid.update] at h4
        obtain ⟨a, -, h4⟩ := res_bind h4
        obtain ⟨c, -, h4⟩ := res_bind h4
        split at h4 <;> cases h4 <;> exact ⟨rfl, hk⟩
      | tunings kp ki kd m =>
        simp only [exec, setTunings] at h1
        obtain ⟨_, -, h1⟩ := res_bind h1
        obtain ⟨_, -, h1⟩ := res_bind h1
        obtain ⟨_, -, h1⟩ := res_bind h1
        cases h1
        cases hr : s.reverse <;> simp [lastSet, signOf, negate, fzero, Arith.sub, Arith.ofRat, hr]
      | sampling t =>
        simp only [exec, setSampling] at h1
        obtain ⟨c, -, h1⟩ := res_bind h1
        split at h1
        · rw [if_neg hs.2.2.ne'] at h1
          cases h1
          exact ⟨rfl, hk⟩
        · cases h1; exact ⟨rfl, hk⟩
    have e : lastSet (s.reverse, k) (op :: ops) = lastSet (lastSet (s.reverse, k) [op]) ops := by cases op <;> rfl
    have r := ih h hu step.2
    rw [e]
    have e2 : (lastSet (s.reverse, k) [op]) = (u.reverse, (lastSet (s.reverse, k) [op]).2) := by rw [step.1]
    rw [e2]
    exact r

/-- A new controller satisfies the hypotheses of `C80_history`; with reversal, tunings, another sampling time and reversal. -/
example : (do
    let s ← Pid.create .debug 0 (0 : Rat) 0 0 20 3 1 false true
    let u ← s.run .debug [.sampling 200, .direction false, .tunings 5 6 7 true, .direction true]
    return ([s.kp, s.ki, s.kd], s.sampling, [u.kp, u.ki, u.kd], u.reverse) : Res (List Rat × Int × List Rat × Bool)) =
    .ok ([-20, -3 / 10, -10], 100, [-5, -6 / 5, -35], true) := by decide +kernel

theorem fl_zero_sub {x : Fl} (h : x.Ok) : (Arith.sub fzero x : Fl).fin = x.fin ∧ (Arith.sub fzero x : Fl).val = -x.val ∧ (Arith.sub fzero x = Fl.nan ↔ x = Fl.nan) ∧
    ∀ t, Arith.sub fzero x = Fl.inf t ↔ x = Fl.inf !t := by
  have hz : (fzero : Fl) = .num false 0 := by decide +kernel
  rw [hz]
  cases x with
  | nan => simp [Arith.sub, Fl.sub, Fl.neg, Fl.add, Fl.fin, Fl.val]
  | inf t => 
    simp only [Arith.sub, Fl.sub, Fl.neg, Fl.add, Fl.fin, Fl.val, neg_zero, true_and, reduceCtorEq, iff_self, Fl.inf.injEq]
    intro t'; cases t <;> cases t' <;> simp
  | num t m =>
    have hv := Fl.sub_val (x := .num false 0) (y := .num t m) rfl rfl
    have e : (Fl.num false 0).val - (Fl.num t m).val = -(Fl.num t m).val := by simp [Fl.val]
    rw [e, F32.rnd_neg, h.rnd_val, abs_neg] at hv
    obtain ⟨h1, h2⟩ := hv h.val_lt
    refine ⟨h1, h2, ?_, ?_⟩
    · constructor
      · intro hc; rw [show Arith.sub (Fl.num false 0) (Fl.num t m) = Fl.sub (Fl.num false 0) (Fl.num t m) from rfl] at hc; rw [hc] at h1; cases h1
      · intro hc; cases hc
    · intro t'
      constructor
      · intro hc; rw [show Arith.sub (Fl.num false 0) (Fl.num t m) = Fl.sub (Fl.num false 0) (Fl.num t m) from rfl] at hc; rw [hc] at h1; cases h1
      · intro hc; cases hc

/-- C80 in single precision: negating is exact, and negating twice restores a number up to the sign of zero. -/
theorem fl_negate {x : Fl} (h : x.Ok) : (Arith.sub fzero x : Fl).val = -x.val ∧
    (Arith.sub fzero (Arith.sub fzero x) : Fl).val = x.val ∧ (Arith.sub fzero (Arith.sub fzero x) : Fl).fin = x.fin ∧
    ((Arith.sub fzero (Arith.sub fzero x) : Fl) = .nan ↔ x = .nan) := by
  have h1 := fl_zero_sub h
  have h2 := fl_zero_sub (x := (Arith.sub fzero x : Fl)) (Fl.sub_ok _ _)
  exact ⟨h1.2.1, by rw [h2.2.1, h1.2.1, neg_neg], h2.1.trans h1.1, h2.2.2.1.trans h1.2.2.1⟩

/-- The same number up to the sign of zero. -/
def SameFl (x y : Fl) : Prop := x.val = y.val ∧ x.fin = y.fin ∧ (x = .nan ↔ y = .nan)

/-- C80 in single precision: reversing negates the gains exactly, and reversing twice restores each gain up to the sign of zero. -/
theorem C80_ieee {s : Pid Fl} {r : Bool} (h : r ≠ s.reverse) (h1 : s.kp.Ok) (h2 : s.ki.Ok) (h3 : s.kd.Ok) :
    ((s.setDirection r).kp.val = -s.kp.val ∧ (s.setDirection r).ki.val = -s.ki.val ∧ (s.setDirection r).kd.val = -s.kd.val) ∧
    (let s' := (s.setDirection r).setDirection s.reverse
     SameFl s'.kp s.kp ∧ SameFl s'.ki s.ki ∧ SameFl s'.kd s.kd ∧ s'.reverse = s.reverse) := by
  have e1 : (r != s.reverse) = true := bne_iff_ne.mpr h
  have e2 : (s.reverse != r) = true := bne_iff_ne.mpr (Ne.symm h)
  have e : s.setDirection r = { s.negate with reverse := r } := by simp only [Pid.setDirection, e1, if_true]
  have e' : (s.setDirection r).setDirection s.reverse = { ({ s.negate with reverse := r } : Pid Fl).negate with reverse := s.reverse } := by
    rw [e]; simp only [Pid.setDirection, e2, if_true]
  refine ⟨?_, ?_⟩
  · rw [e]; exact ⟨(fl_negate h1).1, (fl_negate h2).1, (fl_negate h3).1⟩
  · simp only [e']; exact ⟨(fl_negate h1).2, (fl_negate h2).2, (fl_negate h3).2, trivial⟩

/-- The hypotheses are met by a controller with the gains of the default configuration. -/
example : ∃ s : Pid Fl, s.kp = Fl.ofRat 20 ∧ s.ki = Fl.ofRat (3 / 10) ∧ s.kd = Fl.ofRat (1 / 10) ∧ true ≠ s.reverse ∧ s.kp.Ok ∧ s.ki.Ok ∧ s.kd.Ok :=
  ⟨⟨Fl.ofRat 20, Fl.ofRat (3 / 10), Fl.ofRat (1 / 10), false, fzero, fzero, fzero, 0, fzero, fzero, 100, fzero, Fl.ofRat 255, true⟩, rfl, rfl, rfl, by decide, Fl.ofRat_ok _, Fl.ofRat_ok _,
    Fl.ofRat_ok _⟩

end Spine
