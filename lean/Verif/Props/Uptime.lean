import Verif.Core.Bind
import Verif.Proofs.Latch
import Verif.Model.Pid
import Verif.Props.EventSystem
/-!
# C190: timers, latches and controllers at another uptime
-/

namespace Spine

/-- A time that is exact in single precision, now and `d` later. -/
def Exact (d t : Int) : Prop := |t| ≤ 2 ^ 24 ∧ |t + d| ≤ 2 ^ 24

instance (d t : Int) : Decidable (Exact d t) := inferInstanceAs (Decidable (_ ∧ _))

theorem msSub_shift {a b d : Int} (h : Exact d b) : msSub (a + d) (b + d) = msSub a b := by
  rw [msSub_near (h.1.trans (by norm_num)), msSub_near (h.2.trans (by norm_num)), near_eq h.1, near_eq h.2]
  congr 1
  ring

theorem msLe_shift {a b d : Int} (h : Exact d b) : msLe (a + d) (b + d) = msLe a b := by
  rw [msLe_near (h.1.trans (by norm_num)), msLe_near (h.2.trans (by norm_num)), near_eq h.1, near_eq h.2]
  congr 1
  simp

/-! ## Timers -/

namespace Timer

/-- Asked several times, at the given times, without or with `reset()`. -/
def times (t : Timer) : List (Int × Bool) → Res (List Int)
  | [] => .ok []
  | (now, reset) :: ts => do
    let (d, t) ← t.timeSinceLast now now reset
    return d :: (← t.times ts)

end Timer

/-- **C190** for a `Timer`: the same times at an uptime that is longer by `d`. -/
theorem C190_timer_partial {d : Int} (ts : List (Int × Bool)) : ∀ {t : Timer}, Exact d t.last → (∀ p ∈ ts, Exact d p.1) →
    (Timer.create (t.last + d)).times (ts.map fun p => (p.1 + d, p.2)) = t.times ts := by
  induction ts with
  | nil => intros; rfl
  | cons p ts ih =>
    intro t ht hp
    obtain ⟨now, r⟩ := p
    simp only [List.map_cons, Timer.times, Timer.timeSinceLast, Timer.create, msSub_shift ht]
    cases msSub now t.last with
    | error _ => rfl
    | ok x =>
      simp only [res_bind_ok, res_pure]
      have hp' := fun q hq => hp q (List.mem_cons_of_mem _ hq)
      cases r with
      | true => rw [if_pos rfl, if_pos rfl, ← ih (t := ⟨now⟩) (hp (now, true) List.mem_cons_self) hp']; rfl
      | false => rw [if_neg (by simp), if_neg (by simp), ← ih ht hp']; rfl

/-- **C190** for an `AlarmTimer` set for `delay` from now: it answers the same at an uptime that is longer by `d`. -/
theorem C190_alarm_partial {b : Build} {now delay d : Int} {a : Alarm} (h : Alarm.create b now delay false = .ok a) (hn : |now| ≤ 2 ^ 24) (hn' : |now + d| ≤ 2 ^ 24) (hd : |delay| ≤ 2 ^ 60)
    {ts : List Int} (ht : ∀ t ∈ ts, Exact d t) : ∃ a', Alarm.create b (now + d) delay false = .ok a' ∧ a'.run (ts.map (· + d)) = a.run ts := by
  have small : |near delay| ≤ 2 ^ 61 := by
    have h1 := near_err delay
    rw [abs_le] at *
    have h2 : |near delay - delay| ≤ 2 ^ 60 := by
      have : |delay| ≤ 2 ^ 60 := abs_le.mpr hd
      nlinarith [abs_nonneg (near delay - delay)]
    rw [abs_le] at h2
    constructor <;> omega
  have make : ∀ now : Int, |now| ≤ 2 ^ 24 → Alarm.create b now delay false = .ok ⟨now + near delay, false⟩ := by
    intro now hn
    simp only [Alarm.create, Bool.false_eq_true, if_false, false_and]
    rw [msAdd_near (hd.trans (by norm_num)), i64_small (by rw [abs_le] at *; constructor <;> omega)]
    rfl
  rw [make now hn] at h
  cases h
  refine ⟨_, make _ hn', ?_⟩
  have key : ∀ (ts : List Int) (f : Int) (e : Bool), (∀ t ∈ ts, Exact d t) → (Alarm.mk (f + d) e).run (ts.map (· + d)) = (Alarm.mk f e).run ts := by
    intro ts
    induction ts with
    | nil => intros; rfl
    | cons t ts ih =>
      intro f e h
      have h' := fun q hq => h q (List.mem_cons_of_mem _ hq)
      simp only [List.map_cons, Alarm.run, Alarm.poll]
      cases e with
      | true => simp only [if_true, res_bind_ok, ih f true h']
      | false =>
        simp only [Bool.false_eq_true, if_false, msLe_shift (h t List.mem_cons_self)]
        cases msLe f t with
        | error _ => rfl
        | ok r => cases r <;> simp [ih f _ h', res_bind_ok, res_pure]
  rw [show now + d + near delay = now + near delay + d by ring]
  exact key ts _ _ ht

/-- **C190** for an `IntervalTimer`: it expires at the same queries at an uptime that is longer by `d`. -/
theorem C190_interval_partial {start interval d : Int} {catchUp : Bool} (hs : Exact d start) (hi : 0 ≤ interval) (hi' : interval ≤ 2 ^ 24) {ts : List Int} (ht : ∀ t ∈ ts, Exact d t) :
    ((Interval.create (start + d) interval catchUp).run (ts.map (· + d))).map (·.1) = ((Interval.create start interval catchUp).run ts).map (·.1) := by
  have key : ∀ (ts : List Int) (p : Int), Exact d p → (∀ t ∈ ts, Exact d t) →
      ((Interval.mk (p + d) interval catchUp).run (ts.map (· + d))).map (·.1) = ((Interval.mk p interval catchUp).run ts).map (·.1) := by
    intro ts
    induction ts with
    | nil => intros; rfl
    | cons t ts ih =>
      intro p hp h
      have h' := fun q hq => h q (List.mem_cons_of_mem _ hq)
      have ht := h t List.mem_cons_self
      have hi2 : |interval| ≤ 2 ^ 24 := by rw [abs_of_nonneg hi]; exact hi'
      simp only [List.map_cons, Interval.run]
      rw [Interval.poll_small (t := ⟨p + d, interval, catchUp⟩) hp.2 hi2 ht.2, Interval.poll_small (t := ⟨p, interval, catchUp⟩) hp.1 hi2 ht.1]
      simp only [show t + d - (p + d) = t - p by ring, res_bind_ok]
      have glue : ∀ (r : Bool) (x y : Res (List Bool × Interval)), x.map (·.1) = y.map (·.1) →
          (do let (rs, t) ← x; return (r :: rs, t) : Res (List Bool × Interval)).map (·.1) = (do let (rs, t) ← y; return (r :: rs, t) : Res (List Bool × Interval)).map (·.1) := by
        intro r x y e
        cases x with
        | error e1 => cases y with
          | error e2 => cases e; rfl
          | ok y => cases e
        | ok x => cases y with
          | error e2 => cases e
          | ok y =>
            have e : x.1 = y.1 := Except.ok.inj e
            change Except.ok (r :: x.1) = Except.ok (r :: y.1)
            rw [e]
      by_cases hx : t - p > interval
      · simp only [if_pos hx]
        apply glue
        cases catchUp with
        | false => simpa using ih t ht h'
        | true =>
          have e := ih (p + interval) (by
            obtain ⟨a1, a2⟩ := hp
            obtain ⟨b1, b2⟩ := ht
            rw [abs_le] at a1 a2 b1 b2
            constructor <;> rw [abs_le] <;> constructor <;> omega) h'
          simp only [if_true]
          rw [show p + d + interval = p + interval + d by ring]
          exact e
      · simp only [if_neg hx]
        exact glue _ _ _ (ih p hp h')
  exact key ts start hs ht

/-! ## Latches and controllers -/

section
variable {F : Type} [Arith F]

/-- A latch at another uptime. -/
def Latch.later (d : Int) (l : Latch) : Latch := ⟨l.on, ⟨l.turned.last + d⟩⟩

theorem Latch.newReading_later {cfg : LatchConfig F} {l : Latch} {d now : Int} (h : Exact d l.turned.last) (v : F) :
    (l.later d).newReading cfg (now + d) v = (l.newReading cfg now v).map (Latch.later d) := by
  have e : (l.later d).since (now + d) = l.since now := by
    simp only [Latch.since, Timer.timeSinceLast, Latch.later, msSub_shift h, Bool.false_eq_true, if_false]
    cases msSub now l.turned.last <;> rfl
  unfold Latch.newReading
  rw [e]
  have on : (l.later d).on = l.on := rfl
  rw [on]
  generalize both l.on _ = c1
  generalize both (!l.on) _ = c2
  cases c1 with
  | error _ => rfl
  | ok c1 =>
    cases c1 with
    | true => rfl
    | false =>
      cases c2 with
      | error _ => rfl
      | ok c2 =>
        cases c2 with
        | true => rfl
        | false =>
          simp only [res_bind_ok, Bool.false_eq_true, if_false]
          cases KTime.ne .milli .milli cfg.maxOn 0 with
          | error _ => rfl
          | ok c3 =>
            simp only [res_bind_ok]
            generalize both (c3 && l.on) _ = c4
            cases c4 with
            | error _ => rfl
            | ok c4 =>
              cases c4 with
              | true => rfl
              | false =>
                simp only [res_bind_ok, Bool.false_eq_true, if_false]
                cases KTime.ne .milli .milli cfg.maxOff 0 with
                | error _ => rfl
                | ok c5 =>
                  simp only [res_bind_ok]
                  generalize both (c5 && !l.on) _ = c6
                  cases c6 with
                  | error _ => rfl
                  | ok c6 =>
                    cases c6 with
                    | true => rfl
                    | false =>
                      simp only [res_bind_ok, Bool.false_eq_true, if_false]
                      cases Arith.lt cfg.high v <;> cases Arith.lt v cfg.low <;> rfl

theorem Latch.newReading_last {cfg : LatchConfig F} {l l' : Latch} {now : Int} {v : F} (h : l.newReading cfg now v = .ok l') : l'.turned.last = l.turned.last ∨ l'.turned.last = now := by
  unfold Latch.newReading at h
  obtain ⟨c1, -, h⟩ := res_bind h
  cases c1 with
  | true => cases h; exact .inl rfl
  | false =>
    obtain ⟨c2, -, h⟩ := res_bind h
    cases c2 with
    | true => cases h; exact .inl rfl
    | false =>
      obtain ⟨c3, -, h⟩ := res_bind h
      obtain ⟨c4, -, h⟩ := res_bind h
      cases c4 with
      | true => cases h; exact .inr rfl
      | false =>
        obtain ⟨c5, -, h⟩ := res_bind h
        obtain ⟨c6, -, h⟩ := res_bind h
        cases c6 with
        | true => cases h; exact .inr rfl
        | false =>
          simp only [Bool.false_eq_true, if_false] at h
          split at h
          · cases h; exact .inr rfl
          · split at h
            · cases h; exact .inr rfl
            · cases h; exact .inl rfl

/-- **C190** for an `SRLatch` of any configuration, made at `t0`: the same responses at an uptime that is longer by `d`. -/
theorem C190_latch_partial {cfg : LatchConfig F} {t0 d : Int} {l : Latch} (hc : Latch.create cfg t0 = .ok l) (hl : Exact d l.turned.last) {rs : List (Int × F)} (hr : ∀ r ∈ rs, Exact d r.1) :
    Latch.responses cfg (t0 + d) (rs.map fun r => (r.1 + d, r.2)) = Latch.responses cfg t0 rs := by
  have key : ∀ (rs : List (Int × F)) (l : Latch), Exact d l.turned.last → (∀ r ∈ rs, Exact d r.1) →
      (l.later d).run cfg (rs.map fun r => (r.1 + d, r.2)) = (l.run cfg rs).map fun x => (x.1, x.2.later d) := by
    intro rs
    induction rs with
    | nil => intros; rfl
    | cons r rs ih =>
      intro l hl hr
      obtain ⟨now, v⟩ := r
      simp only [List.map_cons, Latch.run, Latch.newReading_later hl]
      cases e : l.newReading cfg now v with
      | error _ => rfl
      | ok l' =>
        have hl' : Exact d l'.turned.last := by
          rcases Latch.newReading_last e with h | h <;> rw [h]
          · exact hl
          · exact hr (now, v) List.mem_cons_self
        have := ih l' hl' fun r h => hr r (List.mem_cons_of_mem _ h)
        simp only [res_bind_ok, Except.map]
        rw [this]
        cases l'.run cfg rs <;> rfl
  have hc' : Latch.create cfg (t0 + d) = .ok (l.later d) := by
    unfold Latch.create at hc ⊢
    obtain ⟨x, h1, h2⟩ := res_bind hc
    cases h2
    unfold msSub KTime.sub at h1 ⊢
    obtain ⟨m, h3, h4⟩ := res_bind h1
    rw [h3, res_bind_ok]
    have h5 := i64_eq h4
    have h6 : i64 (t0 + d - m) = .ok (t0 + d - m) := by
      refine i64_small ?_
      have h7 := hl.2
      change |x + d| ≤ 2 ^ 24 at h7
      rw [h5, show t0 - m + d = t0 + d - m by ring] at h7
      exact h7.trans (by norm_num)
    rw [h6, h5, show t0 + d - m = t0 - m + d by ring]
    rfl
  unfold Latch.responses
  rw [hc, hc']
  simp only [res_bind_ok]
  rw [key rs l hl hr]
  cases l.run cfg rs <;> rfl

/-- What is done with a controller, at an uptime that is longer by `d`. -/
def PID.Op.later (d : Int) : PID.Op F → PID.Op F
  | .reading v now => .reading v (now + d)
  | op => op

/-- The time of an operation, if it has one, is exact. -/
def PID.Op.Timely (d : Int) : PID.Op F → Prop
  | .reading _ now => Exact d now
  | _ => True

/-- **C190** for a `PID` of any configuration, constructed at `now`: whatever is done with it, its response is the same at an uptime that is longer by `d`. -/
theorem C190_pid_partial {cfg : PidConfig F} {b : Build} {now d : Int} {s0 : Pid F} (hc : PID.create cfg b now = .ok s0) (h0 : Exact d s0.lastTime) {ops : List (PID.Op F)}
    (ho : ∀ op ∈ ops, op.Timely d) : ∃ s0', PID.create cfg b (now + d) = .ok s0' ∧
      (PID.run cfg b s0' (ops.map (PID.Op.later d))).map (·.output) = (PID.run cfg b s0 ops).map (·.output) := by
  have step : ∀ (op : PID.Op F) (s : Pid F), Exact d s.lastTime → op.Timely d →
      PID.exec cfg b { s with lastTime := s.lastTime + d } (op.later d) = (PID.exec cfg b s op).map (fun s => { s with lastTime := s.lastTime + d }) ∧
      ∀ s', PID.exec cfg b s op = .ok s' → Exact d s'.lastTime := by
    intro op s hs hop
    cases op with
    | setpoint v => exact ⟨rfl, fun s' h => by cases h; exact hs⟩
    | tunings kp ki kd m =>
      have : ∀ s : Pid F, s.setTunings b kp ki kd m = (do
          spnAssert b (Arith.le fzero kp && Arith.le fzero ki && Arith.le fzero kd)
          spnAssert b (← msGt s.sampling 0)
          let secs : F := Arith.div (Arith.ofRat s.sampling) (Arith.ofRat 1000)
          return if s.reverse then { s with onMeasurement := m, kp := Arith.sub fzero kp, ki := Arith.sub fzero (Arith.mul ki secs), kd := Arith.sub fzero (Arith.div kd secs) }
            else { s with onMeasurement := m, kp, ki := Arith.mul ki secs, kd := Arith.div kd secs }) := fun s => rfl
      simp only [PID.exec, PID.Op.later, this]
      cases spnAssert b (Arith.le fzero kp && Arith.le fzero ki && Arith.le fzero kd) with
      | error _ => exact ⟨rfl, fun s' h => by cases h⟩
      | ok _ =>
        simp only [res_bind_ok]
        cases msGt s.sampling 0 with
        | error _ => exact ⟨rfl, fun s' h => by cases h⟩
        | ok c =>
          simp only [res_bind_ok]
          cases spnAssert b c with
          | error _ => exact ⟨rfl, fun s' h => by cases h⟩
          | ok _ =>
            simp only [res_bind_ok, res_pure]
            cases s.reverse with
            | true => exact ⟨rfl, fun s' h => by cases h; exact hs⟩
            | false => exact ⟨rfl, fun s' h => by cases h; exact hs⟩
    | start =>
      simp only [PID.exec, PID.Op.later, PID.start]
      have l : ∃ u : Pid F, s.setLimits cfg.lower cfg.upper = u ∧ u.lastTime = s.lastTime ∧
          ({ s with lastTime := s.lastTime + d } : Pid F).setLimits cfg.lower cfg.upper = { u with lastTime := u.lastTime + d } := by
        unfold Pid.setLimits
        cases Arith.le cfg.upper cfg.lower with
        | true => exact ⟨_, rfl, rfl, rfl⟩
        | false => exact ⟨_, rfl, rfl, rfl⟩
      obtain ⟨u, e1, e2, e3⟩ := l
      rw [e1, e3]
      unfold Pid.setSampling
      cases msGt cfg.interval 0 with
      | error _ => exact ⟨rfl, fun s' h => by cases h⟩
      | ok c =>
        cases c with
        | false => exact ⟨rfl, fun s' h => by cases h; rw [← e2] at hs; exact hs⟩
        | true =>
          simp only [res_bind_ok, if_true]
          by_cases hz : u.sampling = 0
          · simp only [hz, if_true]
            exact ⟨rfl, fun s' h => by cases h⟩
          · simp only [hz, if_false, res_bind_ok, res_pure]
            exact ⟨rfl, fun s' h => by cases h; rw [← e2] at hs; exact hs⟩
    | reading v now =>
      simp only [PID.exec, PID.Op.later, PID.newReading, Pid.update, msSub_shift hs]
      cases msSub now s.lastTime with
      | error _ => exact ⟨rfl, fun s' h => by cases h⟩
      | ok x =>
        simp only [res_bind_ok]
        cases Pid.msGe x s.sampling with
        | error _ => exact ⟨rfl, fun s' h => by cases h⟩
        | ok c =>
          cases c with
          | true => exact ⟨rfl, fun s' h => by cases h; exact hop⟩
          | false => exact ⟨rfl, fun s' h => by cases h; exact hs⟩
  have key : ∀ (ops : List (PID.Op F)) (s : Pid F), Exact d s.lastTime → (∀ op ∈ ops, op.Timely d) →
      (PID.run cfg b { s with lastTime := s.lastTime + d } (ops.map (PID.Op.later d))).map (·.output) = (PID.run cfg b s ops).map (·.output) := by
    intro ops
    induction ops with
    | nil => intros; rfl
    | cons op ops ih =>
      intro s hs ho
      obtain ⟨e1, e2⟩ := step op s hs (ho op List.mem_cons_self)
      simp only [List.map_cons, PID.run, e1]
      cases e : PID.exec cfg b s op with
      | error _ => rfl
      | ok s' => exact ih s' (e2 s' e) fun op h => ho op (List.mem_cons_of_mem _ h)
  refine ⟨{ s0 with lastTime := s0.lastTime + d }, ?_, key ops s0 h0 ho⟩
  unfold PID.create Pid.create at hc ⊢
  obtain ⟨s1, h1, h2⟩ := res_bind hc
  obtain ⟨s2, h3, h4⟩ := res_bind h1
  obtain ⟨x, h5, h6⟩ := res_bind h4
  obtain ⟨u, h7, h8⟩ := res_bind h2
  cases h6
  cases h8
  have h9 : msSub (now + d) s2.sampling = .ok (x + d) := by
    unfold msSub KTime.sub at h5 ⊢
    obtain ⟨m, g1, g2⟩ := res_bind h5
    rw [g1, res_bind_ok]
    have g3 := i64_eq g2
    have g4 := h0.2
    change |x + d| ≤ 2 ^ 24 at g4
    rw [show now + d - m = x + d by rw [g3]; ring]
    exact i64_small (g4.trans (by norm_num))
  simp only [h3, h9, h7, res_bind_ok, res_pure]

end

/-! ## The pipeline -/

namespace Agenda

variable {ω : Type} [DecidableEq ω]

/-- An operation at another uptime. -/
def Op.later (d : Int) : Op ω → Op ω
  | .push now o delay => .push (now + d) o delay
  | .expire now => .expire (now + d)
  | .due now => .due (now + d)
  | .next now => .next (now + d)

/-- An agenda at another uptime. -/
def State.later (d : Int) (s : State ω) : State ω := ⟨s.items.map fun x => { x with deadline := x.deadline + d }, s.made⟩

theorem insert_later (d : Int) (x : Item ω) (q : List (Item ω)) :
    insert { x with deadline := x.deadline + d } (q.map fun x => { x with deadline := x.deadline + d }) = (insert x q).map fun x => { x with deadline := x.deadline + d } := by
  have e : (fun y : Item ω => decide (y.deadline ≤ x.deadline + d)) ∘ (fun x : Item ω => { x with deadline := x.deadline + d }) = fun y => decide (y.deadline ≤ x.deadline) := by
    funext y; simp
  simp only [insert, List.takeWhile_map, List.dropWhile_map, e, List.map_append, List.map_cons]

theorem step_later (d : Int) (cap : Nat) (longest : Int) (s : State ω) (op : Op ω) :
    step cap longest id (s.later d) (op.later d) = (step cap longest id s op).map fun r => (r.1, r.2.later d) := by
  obtain ⟨items, made⟩ := s
  cases op with
  | push now o delay =>
    simp only [step, Op.later, State.later, List.length_map, List.map_map]
    have e : ((fun x : Item ω => x.obj) ∘ fun x : Item ω => { x with deadline := x.deadline + d }) = fun x => x.obj := rfl
    rw [e]
    split
    · simp only [Option.map_some, State.later]
      rw [← insert_later, show now + d + delay = now + delay + d by ring]
    · rfl
  | expire now =>
    simp only [step, Op.later, State.later]
    cases items with
    | nil => rfl
    | cons x items =>
      simp only [List.map_cons, id, add_le_add_iff_right]
      split <;> rfl
  | due now =>
    simp only [step, Op.later, State.later]
    cases items with
    | nil => rfl
    | cons x items => simp [State.later]
  | next now =>
    simp only [step, Op.later, State.later]
    cases items with
    | nil => rfl
    | cons x items => simp [State.later]

theorem run_later (d : Int) (cap : Nat) (longest : Int) (ops : List (Op ω)) : ∀ s : State ω,
    run cap longest id (s.later d) (ops.map (Op.later d)) = (run cap longest id s ops).map fun r => (r.1, r.2.later d) := by
  induction ops with
  | nil => intro s; rfl
  | cons op ops ih =>
    intro s
    simp only [List.map_cons, run, step_later]
    cases step cap longest id s op with
    | none => rfl
    | some r =>
      simp only [Option.map_some, Option.bind_eq_bind, Option.bind_some]
      rw [ih]
      cases run cap longest id r.2 ops <;> rfl

end Agenda

/-- **C190** for a pipeline: the same calls have the same answers at an uptime that is longer by `d`. -/
theorem C190_pipeline_partial {ω δ : Type} [DecidableEq ω] {b : Build} {n : Nat} (hn : n < sizeMod) (heap : ω → Event δ) {d : Int} (hd : 0 ≤ d) {ops : List (Agenda.Op ω)}
    (hmono : (ops.map (·.time)).Pairwise (· ≤ ·)) (hrange : ∀ op ∈ ops, 0 ≤ op.time ∧ op.time + d ≤ 2 ^ 24)
    {outs : List (Agenda.Out ω)} {st : Agenda.State ω} (h : Agenda.run n (2 ^ 23) id ⟨[], 0⟩ ops = some (outs, st)) :
    ∃ p p', Pipe.run b { vec := Vec.create (sharedPtr ω) n, heap } ops = .ok (outs, p) ∧
      Pipe.run b { vec := Vec.create (sharedPtr ω) n, heap } (ops.map (Agenda.Op.later d)) = .ok (outs, p') := by
  have time : ∀ op : Agenda.Op ω, (op.later d).time = op.time + d := by intro op; cases op <;> rfl
  obtain ⟨p, h1, -⟩ := C35_pipeline_partial (b := b) hn heap ops hmono (fun op ho => ⟨(hrange op ho).1, by have := (hrange op ho).2; omega⟩) h
  have h' := Agenda.run_later d n (2 ^ 23) ops ⟨[], 0⟩
  rw [h] at h'
  obtain ⟨p', h2, -⟩ := C35_pipeline_partial (b := b) hn heap (ops.map (Agenda.Op.later d)) (by
    rw [List.map_map, show ((fun op : Agenda.Op ω => op.time) ∘ Agenda.Op.later d) = fun op => op.time + d from funext time]
    have := hmono.map (· + d) (fun a c (hac : a ≤ c) => add_le_add_left hac d)
    rwa [List.map_map] at this) (by
    intro op ho
    obtain ⟨op', ho', rfl⟩ := List.mem_map.mp ho
    rw [time]
    have := hrange op' ho'
    omega) h'
  exact ⟨p, p', h1, h2⟩

/-! ## Beyond 2^24 ms -/

/-- **C190** is false for longer uptimes. After 25 days, an alarm for 1 ms that is otherwise expired after 1 ms is not. -/
theorem C190_alarm_counterexample (b : Build) : ∃ a a', Alarm.create b 0 1 false = .ok a ∧ a.run [1] = .ok [true] ∧ Alarm.create b (2 ^ 31) 1 false = .ok a' ∧ a'.run [2 ^ 31 + 1] = .ok [false] := by
  cases b <;> exact ⟨⟨1, false⟩, ⟨2147483649, false⟩, by decide +kernel, by decide +kernel, by decide +kernel, by decide +kernel⟩

/-- **C190** is false for an interval timer and a latch at such uptimes: an interval of a second is over after 938 ms, and a latch with a minimal on time of 2 ms goes off after 1 ms. -/
theorem C190_latch_counterexample :
    ((Interval.create 0 1000 false).run [938]).map (·.1) = .ok [false] ∧ ((Interval.create (2 ^ 31 + 63) 1000 false).run [2 ^ 31 + 63 + 938]).map (·.1) = .ok [true] ∧
    Latch.responses { high := 30, low := 20, minOn := 2 : LatchConfig Rat } 1000 [(1217, 31), (1218, 10)] = .ok [true, true] ∧
    Latch.responses { high := 30, low := 20, minOn := 2 : LatchConfig Rat } (1000 + 16776000) [(1217 + 16776000, 31), (1218 + 16776000, 10)] = .ok [true, false] := by decide +kernel

/-! Cases that meet the hypotheses: three hours later. -/

example : (Latch.create { high := 30, low := 20, minOn := 50, minOff := 100 : LatchConfig Rat } 1000).map (fun l => decide (Exact 10800000 l.turned.last)) = .ok true ∧
    Latch.responses { high := 30, low := 20, minOn := 50, minOff := 100 : LatchConfig Rat } 1000 [(1000, 31), (1040, 10), (1060, 10), (1100, 31)] = .ok [true, true, false, false] ∧
    Latch.responses { high := 30, low := 20, minOn := 50, minOff := 100 : LatchConfig Rat } 10801000 [(10801000, 31), (10801040, 10), (10801060, 10), (10801100, 31)] = .ok [true, true, false, false] := by
  decide +kernel

example : Agenda.run 5 (2 ^ 23) id ⟨[], 0⟩ [.push 0 0 30, .push 5 1 10, .next 6, .due 15, .expire 20] = some ([.unit, .unit, .time 9, .bool true, .obj 1], ⟨[⟨0, 30, 0⟩], 2⟩) ∧
    ∀ op ∈ ([.push 0 0 30, .push 5 1 10, .next 6, .due 15, .expire 20] : List (Agenda.Op Nat)), 0 ≤ op.time ∧ op.time + 10800000 ≤ 2 ^ 24 := by decide

example : ∀ t ∈ [1, 2, 3], Exact 10800000 t := by decide

example : (Timer.create 5).times [(10, false), (25, true), (26, false)] = .ok [5, 20, 1] := by decide +kernel

example : (PID.create (PidConfig.default : PidConfig Rat) .debug 1000).map (fun s => decide (Exact 10800000 s.lastTime)) = .ok true ∧
    ((PID.create (PidConfig.default : PidConfig Rat) .debug 1000 >>= fun s => PID.run PidConfig.default .debug s [.start, .setpoint 10, .reading 5 1000, .reading 5 1100]).map (·.output)) = .ok (3 / 20) := by
  decide +kernel

end Spine
