import Verif.Model.RingBuffer
import Verif.Model.Stream
import Verif.Props.Timers
import Verif.Props.Latch
import Verif.Props.Pid
import Verif.Props.PushOrder
/-!
# C196: calls that achieve nothing leave no trace
-/

namespace Spine

/-- `ops'` and `outs'` are what is left of the calls `ops` and their results `outs` when some idle calls are left out. -/
inductive Thinned {Op Out : Type} (idle : Op → Out → Prop) : List Op → List Out → List Op → List Out → Prop
  | nil : Thinned idle [] [] [] []
  | keep {op : Op} {o : Out} {ops outs ops' outs'} : Thinned idle ops outs ops' outs' → Thinned idle (op :: ops) (o :: outs) (op :: ops') (o :: outs')
  | drop {op : Op} {o : Out} {ops outs ops' outs'} : idle op o → Thinned idle ops outs ops' outs' → Thinned idle (op :: ops) (o :: outs) ops' outs'

/-! ## Ring buffers -/

namespace Ring

variable {α : Type}

/-- A push or pop that was refused, or a question. -/
def Op.Idle : Op α → Out α → Prop
  | .push _ _, o => o = .bool false
  | .pushMany _ _, o => o = .num 0
  | .pop, o => o = .val none
  | .popMany _ _, o => ∃ dst, o = .block 0 dst
  | .dropLast _, _ | .dropFirst _, _ | .clear, _ => False
  | _, _ => True

theorem push_refused {r r' : Ring α} {v : α} {ro : Bool} (h : r.push v ro = .ok (false, r')) : r' = r := by
  unfold push at h
  split at h
  · exact (Prod.mk.inj (Except.ok.inj h)).2.symm
  · obtain ⟨buf, _, h⟩ := res_bind h
    obtain ⟨hd, _, h⟩ := res_bind h
    split at h
    · exact absurd (Prod.mk.inj (Except.ok.inj h)).1 (by simp)
    · split at h
      · obtain ⟨t, _, h⟩ := res_bind h
        exact absurd (Prod.mk.inj (Except.ok.inj h)).1 (by simp)
      · exact absurd (Prod.mk.inj (Except.ok.inj h)).1 (by simp)

theorem pushMany_refused {r r' : Ring α} {vs : List α} {ro : Bool} (h : r.pushMany vs ro = .ok (0, r')) : r' = r := by
  cases vs with
  | nil => exact (Prod.mk.inj (Except.ok.inj h)).2.symm
  | cons v vs =>
    unfold pushMany at h
    obtain ⟨⟨d, r1⟩, h1, h⟩ := res_bind h
    cases d with
    | false =>
      have : r1 = r' := (Prod.mk.inj (Except.ok.inj h)).2
      exact this ▸ push_refused h1
    | true =>
      obtain ⟨⟨n, r2⟩, h2, h⟩ := res_bind h
      exact absurd (Prod.mk.inj (Except.ok.inj h)).1 (by simp)

theorem pop_refused {r r' : Ring α} (h : r.pop = .ok (none, r')) : r' = r := by
  unfold pop at h
  split at h
  · exact (Prod.mk.inj (Except.ok.inj h)).2.symm
  · obtain ⟨v, _, h⟩ := res_bind h
    obtain ⟨t, _, h⟩ := res_bind h
    exact absurd (Prod.mk.inj (Except.ok.inj h)).1 (by simp)

theorem popMany_refused {r r' : Ring α} {dst dst' : List α} {n : Nat} (h : r.popMany dst n = .ok ((0, dst'), r')) : r' = r := by
  unfold popMany at h
  split at h
  · exact (Prod.mk.inj (Except.ok.inj h)).2.symm
  · obtain ⟨⟨d, r1⟩, h1, h⟩ := res_bind h
    have e := Prod.mk.inj (Except.ok.inj h)
    have e0 : n = 0 := (Prod.mk.inj e.1).1
    subst e0
    rw [popLoop] at h1
    exact e.2 ▸ (Prod.mk.inj (Except.ok.inj h1)).2.symm

theorem idle_step {r r' : Ring α} {op : Op α} {o : Out α} (h : r.step op = .ok (o, r')) (hi : op.Idle o) : r' = r := by
  cases op with
  | push v ro =>
    obtain ⟨⟨d, r1⟩, h1, h⟩ := res_bind h
    obtain ⟨rfl, rfl⟩ := Prod.mk.inj (Except.ok.inj h)
    cases hi; exact push_refused h1
  | pushMany vs ro =>
    obtain ⟨⟨d, r1⟩, h1, h⟩ := res_bind h
    obtain ⟨rfl, rfl⟩ := Prod.mk.inj (Except.ok.inj h)
    cases hi; exact pushMany_refused h1
  | pop =>
    obtain ⟨⟨d, r1⟩, h1, h⟩ := res_bind h
    obtain ⟨rfl, rfl⟩ := Prod.mk.inj (Except.ok.inj h)
    cases hi; exact pop_refused h1
  | popMany dst n =>
    obtain ⟨⟨⟨d, e⟩, r1⟩, h1, h⟩ := res_bind h
    obtain ⟨rfl, rfl⟩ := Prod.mk.inj (Except.ok.inj h)
    obtain ⟨dst', hi⟩ := hi
    cases hi; exact popMany_refused h1
  | peekAt i =>
    obtain ⟨v, h1, h⟩ := res_bind h
    exact (Prod.mk.inj (Except.ok.inj h)).2.symm
  | dropLast n => exact hi.elim
  | dropFirst n => exact hi.elim
  | clear => exact hi.elim
  | _ => exact (Prod.mk.inj (Except.ok.inj h)).2.symm

end Ring

/-- **C196**, partial. Refused pushes and pops of a ring buffer, and questions, can be left out of any history. Missing: dropping zero elements, see the counterexample. -/
theorem C196_ring_partial {α : Type} {r r' : Ring α} {ops ops' : List (Ring.Op α)} {outs outs' : List (Ring.Out α)} (h : r.run ops = .ok (outs, r')) (ht : Thinned Ring.Op.Idle ops outs ops' outs') :
    r.run ops' = .ok (outs', r') := by
  induction ht generalizing r with
  | nil => exact h
  | keep _ ih =>
    rw [Ring.run] at h ⊢
    obtain ⟨⟨o, r1⟩, h1, h⟩ := res_bind h
    obtain ⟨⟨os, r2⟩, h2, h⟩ := res_bind h
    obtain ⟨e, rfl⟩ := Prod.mk.inj (Except.ok.inj h)
    obtain ⟨rfl, rfl⟩ := List.cons.inj e
    rw [h1, res_bind_ok]
    dsimp only
    rw [ih h2]; rfl
  | drop hi _ ih =>
    rw [Ring.run] at h
    obtain ⟨⟨o, r1⟩, h1, h⟩ := res_bind h
    obtain ⟨⟨os, r2⟩, h2, h⟩ := res_bind h
    obtain ⟨e, rfl⟩ := Prod.mk.inj (Except.ok.inj h)
    obtain ⟨rfl, rfl⟩ := List.cons.inj e
    obtain rfl := Ring.idle_step h1 hi
    exact ih h2

/-- C196 is false for dropping zero elements: a full buffer is empty afterwards. -/
theorem C196_drop_zero_counterexample (b : Build) :
    ∃ r r1 r2 : Ring Nat, Ring.create b 2 0 = .ok r ∧ r.run [.push 1 false, .push 2 false, .dropLast 0, .pop] = .ok ([.bool true, .bool true, .num 0, .val none], r1) ∧
      r.run [.push 1 false, .push 2 false, .pop] = .ok ([.bool true, .bool true, .val (some 1)], r2) := by
  cases b <;> exact ⟨_, _, _, rfl, rfl, rfl⟩

/-- Non-vacuity: a history with a refused push, a refused pop and a question, and what is left of it. -/
example (b : Build) : ∃ r r1 : Ring Nat, Ring.create b 1 0 = .ok r ∧
    r.run [.pop, .push 1 false, .push 2 false, .usedSpace, .pop] = .ok ([.val none, .bool true, .bool false, .num 1, .val (some 1)], r1) ∧
    Thinned Ring.Op.Idle [.pop, .push 1 false, .push 2 false, .usedSpace, .pop] [.val none, .bool true, .bool false, .num 1, .val (some 1)] [.push 1 false, .pop] [.bool true, .val (some 1)] := by
  cases b <;> exact ⟨_, _, rfl, rfl, .drop rfl (.keep (.drop rfl (.drop trivial (.keep .nil))))⟩

/-! ## Timers -/

/-- **C196.** Polling an alarm less often gives the same answers at the times that are left. -/
theorem C196_alarm {a : Alarm} {ts : List Int} (hs : ts.Pairwise (· ≤ ·)) (ht : ∀ t ∈ ts, |t| ≤ 2 ^ 62) (ha : a.expired = false) :
    ∃ answer : Int → Bool, ∀ ts', List.Sublist ts' ts → a.run ts' = .ok (ts'.map answer) :=
  ⟨_, fun ts' h => Alarm.run_spec ts' a (hs.sublist h) (fun t m => ht t (h.subset m)) (by simp [ha])⟩

/-- **C196.** Polls of an interval timer that find it not expired can be left out. -/
theorem C196_interval {t t' : Interval} {ts ts' : List Int} {os os' : List Bool} (h : t.run ts = .ok (os, t')) (ht : Thinned (fun _ o => o = false) ts os ts' os') :
    t.run ts' = .ok (os', t') := by
  induction ht generalizing t with
  | nil => exact h
  | keep _ ih =>
    rw [Interval.run] at h ⊢
    obtain ⟨⟨o, r1⟩, h1, h⟩ := res_bind h
    obtain ⟨⟨os, r2⟩, h2, h⟩ := res_bind h
    obtain ⟨e, rfl⟩ := Prod.mk.inj (Except.ok.inj h)
    obtain ⟨rfl, rfl⟩ := List.cons.inj e
    rw [h1, res_bind_ok]
    dsimp only
    rw [ih h2]; rfl
  | drop hi _ ih =>
    rw [Interval.run] at h
    obtain ⟨⟨o, r1⟩, h1, h⟩ := res_bind h
    obtain ⟨⟨os, r2⟩, h2, h⟩ := res_bind h
    obtain ⟨e, rfl⟩ := Prod.mk.inj (Except.ok.inj h)
    obtain ⟨rfl, rfl⟩ := List.cons.inj e
    subst hi
    have : r1 = t := by
      unfold Interval.poll at h1
      obtain ⟨d, _, h1⟩ := res_bind h1
      obtain ⟨c, _, h1⟩ := res_bind h1
      cases c with
      | false => exact (Prod.mk.inj (Except.ok.inj h1)).2.symm
      | true =>
        exfalso
        simp only [if_true] at h1
        split at h1
        · obtain ⟨p, _, h1⟩ := res_bind h1
          exact absurd (Prod.mk.inj (Except.ok.inj h1)).1 (by simp)
        · exact absurd (Prod.mk.inj (Except.ok.inj h1)).1 (by simp)
    subst this
    exact ih h2

/-- Non-vacuity: a timer of 10 ms that is polled often, and what is left of the polls. -/
example : (∃ t, (Interval.create 0 10 true).run [5, 11, 12, 31, 32, 33] = .ok ([false, true, false, true, true, false], t)) ∧
    Thinned (fun _ o => o = false) [5, 11, 12, 31, 32, 33] [false, true, false, true, true, false] [(11 : Int), 31, 32] [true, true, true] :=
  ⟨⟨⟨30, 10, true⟩, by decide +kernel⟩, .drop rfl (.keep (.drop rfl (.keep (.keep (.drop rfl .nil)))))⟩

/-! ## Controllers -/

/-- The states of two controllers that differ at most in the last reading. -/
def Pid.LikeBut {F : Type} (s t : Pid F) : Prop := { s with input := t.input } = t

theorem Pid.LikeBut.reading {F : Type} [Arith F] {s t : Pid F} (h : s.LikeBut t) (v : F) (now : Int) : PID.newReading s v now = PID.newReading t v now := by
  unfold PID.newReading
  rw [← (h : { s with input := t.input } = t)]

/-- **C196.** Readings of a PID that come too early for a computation can be left out: the others lead to the same computations, and in the end the controllers differ at most in the last reading. -/
theorem C196_pid {F : Type} [Arith F] {s s' : Pid F} {rs rs' : List (Int × F)} {fs fs' : List Bool} (h : PID.readings s rs = .ok (fs, s')) (ht : Thinned (fun _ f => f = false) rs fs rs' fs') :
    ∃ s'', PID.readings s rs' = .ok (fs', s'') ∧ s''.LikeBut s' := by
  suffices H : ∀ t : Pid F, t.LikeBut s → ∃ s'', PID.readings t rs' = .ok (fs', s'') ∧ s''.LikeBut s' from H s rfl
  induction ht generalizing s with
  | nil =>
    intro t hts
    obtain ⟨-, rfl⟩ := Prod.mk.inj (Except.ok.inj h)
    exact ⟨t, rfl, hts⟩
  | @keep op _ _ _ _ _ _ ih =>
    intro t hts
    obtain ⟨now, v⟩ := op
    rw [PID.readings] at h ⊢
    obtain ⟨⟨f, s1⟩, h1, h⟩ := res_bind h
    obtain ⟨⟨os, s2⟩, h2, h⟩ := res_bind h
    obtain ⟨e, rfl⟩ := Prod.mk.inj (Except.ok.inj h)
    obtain ⟨rfl, rfl⟩ := List.cons.inj e
    obtain ⟨s'', e1, e2⟩ := ih h2 s1 rfl
    refine ⟨s'', ?_, e2⟩
    rw [hts.reading, h1, res_bind_ok]
    dsimp only
    rw [e1]; rfl
  | @drop op _ _ _ _ _ hi _ ih =>
    intro t hts
    obtain ⟨now, v⟩ := op
    rw [PID.readings] at h
    obtain ⟨⟨f, s1⟩, h1, h⟩ := res_bind h
    obtain ⟨⟨os, s2⟩, h2, h⟩ := res_bind h
    obtain ⟨e, rfl⟩ := Prod.mk.inj (Except.ok.inj h)
    obtain ⟨rfl, rfl⟩ := List.cons.inj e
    subst hi
    refine ih h2 t ?_
    unfold PID.newReading Pid.update at h1
    obtain ⟨d, _, h1⟩ := res_bind h1
    obtain ⟨c, _, h1⟩ := res_bind h1
    cases c with
    | true => exact absurd (Prod.mk.inj (Except.ok.inj h1)).1 (by simp)
    | false =>
      have : { s with input := v } = s1 := (Prod.mk.inj (Except.ok.inj h1)).2
      subst this
      show { t with input := v } = { s with input := v }
      rw [← (hts : { t with input := s.input } = s)]

/-- **C196.** Controllers that differ at most in the last reading go on alike, until they are initialised again. -/
theorem C196_pid_later {F : Type} [Arith F] (cfg : PidConfig F) (b : Build) {s t s' : Pid F} {ops : List (PID.Op F)} (h : s.LikeBut t) (hops : PID.Op.start ∉ ops) (hr : PID.run cfg b s ops = .ok s') :
    ∃ t', PID.run cfg b t ops = .ok t' ∧ s'.LikeBut t' ∧ t'.output = s'.output := by
  suffices H : ∃ t', PID.run cfg b t ops = .ok t' ∧ s'.LikeBut t' by
    obtain ⟨t', h1, h2⟩ := H
    exact ⟨t', h1, h2, by rw [← (h2 : { s' with input := t'.input } = t')]⟩
  induction ops generalizing s t with
  | nil => obtain rfl := Except.ok.inj hr; exact ⟨t, rfl, h⟩
  | cons op ops ih =>
    rw [PID.run] at hr ⊢
    obtain ⟨s1, h1, h2⟩ := res_bind hr
    suffices H : ∃ t1, PID.exec cfg b t op = .ok t1 ∧ s1.LikeBut t1 by
      obtain ⟨t1, e1, e2⟩ := H
      rw [e1, res_bind_ok]
      exact ih e2 (fun m => hops (by simp [m])) h2
    cases op with
    | start => exact absurd (by simp) hops
    | reading v now => exact ⟨s1, by rw [← h1]; simp only [PID.exec, h.reading], rfl⟩
    | setpoint v =>
      obtain rfl := Except.ok.inj h1
      exact ⟨_, rfl, by rw [← (h : { s with input := t.input } = t)]; rfl⟩
    | tunings kp ki kd m =>
      rw [← (h : { s with input := t.input } = t)]
      simp only [PID.exec, Pid.setTunings] at h1 ⊢
      obtain ⟨_, e1, h1⟩ := res_bind h1
      obtain ⟨c, e2, h1⟩ := res_bind h1
      obtain ⟨_, e3, h1⟩ := res_bind h1
      obtain rfl := Except.ok.inj h1
      simp only [e1, e2, e3, res_bind_ok]
      refine ⟨_, rfl, ?_⟩
      cases hrev : s.reverse <;> simp [Pid.LikeBut, Pid.negate, hrev]

/-- A boiler whose output is 0 to 100. -/
def boiler : PidConfig Rat := { kp := 2, ki := 1, kd := 0, lower := 0, upper := 100 }

/-- C196 is false if the controller is initialised again: the reading that came too early is then taken for the last one. -/
theorem C196_initialize_counterexample (b : Build) :
    (do let s ← PID.create boiler b 0; let s ← PID.run boiler b s [.start, .setpoint 20, .reading 5 0]; return (← PID.readings s [(50, 9)]).1) = .ok [false] ∧
    (do let s ← PID.create boiler b 0; let s ← PID.run boiler b s [.start, .setpoint 20, .reading 5 0, .reading 9 50, .start, .reading 5 100]; return s.output) = .ok (19 / 2) ∧
    (do let s ← PID.create boiler b 0; let s ← PID.run boiler b s [.start, .setpoint 20, .reading 5 0, .start, .reading 5 100]; return s.output) = .ok (3 / 2) := by
  cases b <;> decide +kernel

/-- Non-vacuity: of four readings two come too early. -/
example (b : Build) : (do let s ← PID.create boiler b 0; let s ← PID.run boiler b s [.start, .setpoint 20]; return (← PID.readings s [(0, 5), (50, 9), (120, 6), (130, 7)]).1) = .ok [true, false, true, false] ∧
    Thinned (fun _ f => f = false) [((0 : Int), (5 : Rat)), (50, 9), (120, 6), (130, 7)] [true, false, true, false] [(0, 5), (120, 6)] [true, true] := by
  refine ⟨?_, .keep (.drop rfl (.keep (.drop rfl .nil)))⟩
  cases b <;> decide +kernel

/-! ## Latches -/

theorem Latch.newReading_idle {F : Type} [Arith F] (cfg : LatchConfig F) {l l1 : Latch} {now : Int} {v : F} (h : l.newReading cfg now v = .ok l1) (hlo : Arith.lt v cfg.low = false)
    (hhi : Arith.lt cfg.high v = false) (hon : l1.on = l.on) : l1 = l := by
  unfold Latch.newReading at h
  obtain ⟨c1, e1, h⟩ := res_bind h
  cases c1 with
  | true => exact (Except.ok.inj h).symm
  | false =>
  obtain ⟨c2, e2, h⟩ := res_bind h
  cases c2 with
  | true => exact (Except.ok.inj h).symm
  | false =>
  obtain ⟨n3, e3, h⟩ := res_bind h
  obtain ⟨c3, e3', h⟩ := res_bind h
  cases c3 with
  | true =>
    obtain rfl := Except.ok.inj h
    simp only [Latch.set] at hon
    rw [← hon] at e3'
    simp [Latch.both] at e3'
  | false =>
  obtain ⟨n4, e4, h⟩ := res_bind h
  obtain ⟨c4, e4', h⟩ := res_bind h
  cases c4 with
  | true =>
    obtain rfl := Except.ok.inj h
    simp only [Latch.set] at hon
    rw [← hon] at e4'
    simp [Latch.both] at e4'
  | false =>
  simp [hlo, hhi] at h
  exact h.symm

/-- **C196.** A reading between the thresholds that does not change the response of a latch can be left out. -/
theorem C196_latch {F : Type} [Arith F] (cfg : LatchConfig F) {t0 now : Int} {v : F} {pre rest : List (Int × F)} {on : Bool} (h : Latch.response cfg t0 pre = .ok on)
    (h' : Latch.response cfg t0 (pre ++ [(now, v)]) = .ok on) (hlo : Arith.lt v cfg.low = false) (hhi : Arith.lt cfg.high v = false) :
    Latch.response cfg t0 (pre ++ (now, v) :: rest) = Latch.response cfg t0 (pre ++ rest) := by
  unfold Latch.response at h h' ⊢
  obtain ⟨l0, e0, h⟩ := res_bind h
  obtain ⟨⟨os, l⟩, e1, h⟩ := res_bind h
  obtain rfl := Except.ok.inj h
  simp only [e0, res_bind_ok, Latch.run_append, e1, Latch.run] at h' ⊢
  cases hn : l.newReading cfg now v with
  | error f => rw [hn] at h'; cases h'
  | ok l1 =>
    rw [hn] at h'
    obtain rfl : l1 = l := by
      have hon : l1.on = l.on := Except.ok.inj h'
      exact Latch.newReading_idle cfg hn hlo hhi hon
    simp only [res_bind_ok]
    cases l1.run cfg rest <;> rfl

/-- C196 is false for a reading above the thresholds while the latch is on: it prolongs the time for which the latch may be on. -/
theorem C196_latch_counterexample : Latch.response pump 0 [(5, 31)] = .ok true ∧ Latch.response pump 0 ([(5, 31)] ++ [(20, 31)]) = .ok true ∧
    Latch.response pump 0 ([(5, 31)] ++ (20, 31) :: [(40, 25)]) = .ok true ∧ Latch.response pump 0 ([(5, 31)] ++ [(40, 25)]) = .ok false := by decide +kernel

/-- Non-vacuity: a reading of 25 while the pump is on. -/
example : Latch.response pump 0 [(5, 31)] = .ok true ∧ Latch.response pump 0 ([(5, 31)] ++ [(20, 25)]) = .ok true ∧ Arith.lt (25 : Rat) pump.low = false ∧
    Arith.lt pump.high (25 : Rat) = false := by decide +kernel

/-! ## Streams -/

theorem BufStream.pullLoop_count {σ : Type} (S : Stream σ) (fuel : Nat) : ∀ {s s' : BufStream σ} {c : Byte} {n m : Nat}, s.pullLoop S fuel c n = .ok (m, s') → n ≤ m := by
  induction fuel with
  | zero => intro s s' c n m h; cases h
  | succ fuel ih =>
    intro s s' c n m h
    rw [BufStream.pullLoop] at h
    split at h
    · exact (Prod.mk.inj (Except.ok.inj h)).1.le
    · obtain ⟨st, _, h⟩ := res_bind h
      cases st with
      | true => exact (Prod.mk.inj (Except.ok.inj h)).1.le
      | false =>
        obtain ⟨⟨x, p⟩, _, h⟩ := res_bind h
        cases x with
        | none => exact (Prod.mk.inj (Except.ok.inj h)).1.le
        | some x =>
          obtain ⟨⟨_, ring⟩, _, h⟩ := res_bind h
          have := ih h
          omega

/-- **C196.** If `pull_in_data` reads nothing from a port that stays as it is when it has nothing, then nothing has changed. -/
theorem C196_pull {σ : Type} {S : Stream σ} (hS : ∀ p p', S.read p = .ok (none, p') → p' = p) {s s' : BufStream σ} {fuel : Nat} (h : s.pullInData S fuel = .ok (0, s')) : s' = s := by
  unfold BufStream.pullInData at h
  cases fuel with
  | zero => cases h
  | succ fuel =>
    rw [BufStream.pullLoop] at h
    split at h
    · exact (Prod.mk.inj (Except.ok.inj h)).2.symm
    · obtain ⟨st, _, h⟩ := res_bind h
      cases st with
      | true => exact (Prod.mk.inj (Except.ok.inj h)).2.symm
      | false =>
        obtain ⟨⟨x, p⟩, hr, h⟩ := res_bind h
        cases x with
        | none =>
          obtain rfl := (Prod.mk.inj (Except.ok.inj h)).2
          rw [hS _ _ hr]
        | some x =>
          obtain ⟨⟨_, ring⟩, _, h⟩ := res_bind h
          have := BufStream.pullLoop_count S fuel h
          omega

/-- **C196.** The mock stream is such a port. -/
theorem C196_mock {p p' : Mock} (h : Mock.iface.read p = .ok (none, p')) : p' = p := by
  obtain ⟨⟨v, r⟩, h1, h⟩ := res_bind (h : p.read = _)
  obtain ⟨rfl, rfl⟩ := Prod.mk.inj (Except.ok.inj h)
  rw [Ring.pop_refused h1]
  unfold Mock.setIn Mock.activeIn
  cases p with | mk a b c => cases c <;> rfl

/-- Non-vacuity: nothing has arrived. -/
example : ∃ m s, Mock.create .debug 4 4 = .ok m ∧ BufStream.create .debug m 4 4 [10] = .ok s ∧ s.pullInData Mock.iface 3 = .ok (0, s) := ⟨_, _, rfl, rfl, rfl⟩

/-! ## Pipelines -/

/-- A question. -/
def Agenda.Op.Idle {ω : Type} : Agenda.Op ω → Agenda.Out ω → Prop
  | .due _, _ | .next _, _ => True
  | _, _ => False

theorem Agenda.thinned {ω : Type} [DecidableEq ω] {n : Nat} {longest : Int} {see : Int → Int} {s t : Agenda.State ω} {ops ops' : List (Agenda.Op ω)} {outs outs' : List (Agenda.Out ω)}
    (h : Agenda.run n longest see s ops = some (outs, t)) (ht : Thinned Agenda.Op.Idle ops outs ops' outs') : Agenda.run n longest see s ops' = some (outs', t) ∧ ops'.Sublist ops := by
  induction ht generalizing s with
  | nil => exact ⟨h, .slnil⟩
  | keep _ ih =>
    obtain ⟨o, u, os, e1, e2, e3⟩ := run_cons.mp h
    obtain ⟨rfl, rfl⟩ := List.cons.inj e3
    exact ⟨run_cons.mpr ⟨_, u, _, e1, (ih e2).1, rfl⟩, (ih e2).2.cons_cons _⟩
  | @drop op _ _ _ _ _ hi _ ih =>
    obtain ⟨o, u, os, e1, e2, e3⟩ := run_cons.mp h
    obtain ⟨rfl, rfl⟩ := List.cons.inj e3
    have : u = s := by
      cases op with
      | due now => exact (Prod.mk.inj (Option.some.inj e1)).2.symm
      | next now => exact (Prod.mk.inj (Option.some.inj e1)).2.symm
      | push _ _ _ => exact hi.elim
      | expire _ => exact hi.elim
    subst this
    exact ⟨(ih e2).1, (ih e2).2.cons _⟩

/-- **C196**, partial. The questions whether a future is due and how long it takes until then can be left out, although asking marks a future that is due. Missing is what is missing in C35. -/
theorem C196_pipeline_partial {ω δ : Type} [DecidableEq ω] {b : Build} {n : Nat} (hn : n < sizeMod) (heap : ω → Event δ) {ops ops' : List (Agenda.Op ω)}
    (hmono : (ops.map (·.time)).Pairwise (· ≤ ·)) (hrange : ∀ op ∈ ops, 0 ≤ op.time ∧ op.time ≤ 2 ^ 40)
    {outs outs' : List (Agenda.Out ω)} {st : Agenda.State ω} (h : Agenda.run n (2 ^ 23) near ⟨[], 0⟩ ops = some (outs, st)) (ht : Thinned Agenda.Op.Idle ops outs ops' outs') :
    ∃ p p' : Pipe ω δ, Pipe.run b { vec := Vec.create (sharedPtr ω) n, heap } ops = .ok (outs, p) ∧ Pipe.run b { vec := Vec.create (sharedPtr ω) n, heap } ops' = .ok (outs', p') ∧
      ∃ q : List ω, p.vec.Holds (q.map some) ∧ p'.vec.Holds (q.map some) := by
  obtain ⟨h', hsub⟩ := Agenda.thinned h ht
  obtain ⟨p, r1, r2, _, _⟩ := C35_later_partial (b := b) hn heap _ hmono hrange h
  obtain ⟨p', s1, s2, _, _⟩ := C35_later_partial (b := b) hn heap _ (hmono.sublist (hsub.map _)) (fun op m => hrange op (hsub.subset m)) h'
  exact ⟨p, p', r1, s1, st.items.map (·.obj), by simpa [List.map_map, Function.comp_def] using r2, by simpa [List.map_map, Function.comp_def] using s2⟩

/-- Non-vacuity: a pipeline that is asked before each expiry. -/
example {b : Build} : ((blankPipe 2).run b [.push 10 1 5, .due 12, .next 12, .due 15, .expire 15]).map Prod.fst = .ok [.unit, .bool false, .time 3, .bool true, .obj 1] ∧
    Thinned Agenda.Op.Idle [.push 10 1 5, .due 12, .next 12, .due 15, .expire 15] [.unit, .bool false, .time 3, .bool true, .obj 1] [.push 10 1 5, .expire 15] [.unit, .obj 1] ∧
    (Agenda.run 2 (2 ^ 23) near (⟨[], 0⟩ : Agenda.State Nat) [.push 10 1 5, .due 12, .next 12, .due 15, .expire 15]).isSome = true := by
  refine ⟨?_, .keep (.drop trivial (.drop trivial (.drop trivial (.keep .nil)))), ?_⟩ <;> cases b <;> decide +kernel

end Spine
