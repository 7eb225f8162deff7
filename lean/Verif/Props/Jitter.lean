import Verif.Props.Pid
import Verif.Core.Bind
/-!
# C205: a controller does not see when its readings were taken
-/

namespace Spine

namespace PID
open Pid

variable {F : Type} [Arith F]

/-- Specification: the controllers differ at most in the time of the last computation and in a reading that was not used. -/
def Like (s t : Pid F) : Prop := { s with lastTime := 0, input := s.lastReading } = { t with lastTime := 0, input := t.lastReading }

/-- Specification: a controller without a clock: it computes with every value it is given. -/
def timeless (b : Build) (s : Pid F) : List (Op F) → Res (Pid F)
  | [] => .ok s
  | .reading v _ :: ops => timeless b ({ s with input := v }.compute 0) ops
  | .setpoint v :: ops => timeless b { s with setpoint := v } ops
  | .tunings kp ki kd m :: ops => do timeless b (← s.setTunings b kp ki kd m) ops
  | .start :: ops => timeless b s ops

/-- Specification: what is left of a history without the readings that led to no computation, and without the times. -/
def seen (cfg : PidConfig F) (b : Build) (s : Pid F) : List (Op F) → Res (List (Op F))
  | [] => .ok []
  | .reading v now :: ops => do
    let (used, s') ← newReading s v now
    let r ← seen cfg b s' ops
    return if used then .reading v 0 :: r else r
  | op :: ops => do return op :: (← seen cfg b (← exec cfg b s op) ops)

theorem Like.tunings {s t s' : Pid F} (h : Like s t) {b : Build} {kp ki kd : F} {m : Bool} (hs : s.setTunings b kp ki kd m = .ok s') :
    ∃ t', t.setTunings b kp ki kd m = .ok t' ∧ Like s' t' := by
  obtain ⟨kp1, ki1, kd1, r1, inp1, out1, sp1, lt1, cu1, lr1, sa1, lo1, hi1, om1⟩ := s
  obtain ⟨kp2, ki2, kd2, r2, inp2, out2, sp2, lt2, cu2, lr2, sa2, lo2, hi2, om2⟩ := t
  simp only [Like, Pid.mk.injEq] at h
  obtain ⟨rfl, rfl, rfl, rfl, -, rfl, rfl, -, rfl, rfl, rfl, rfl, rfl, rfl⟩ := h
  unfold setTunings at hs ⊢
  obtain ⟨_, e1, hs⟩ := res_bind hs
  obtain ⟨_, e2, hs⟩ := res_bind hs
  obtain ⟨_, e3, hs⟩ := res_bind hs
  obtain rfl := Except.ok.inj hs
  simp only at e1 e2 e3
  simp only [e1, e2, e3, res_bind_ok, res_pure]
  refine ⟨_, rfl, ?_⟩
  cases r1 <;> rfl

theorem Like.compute {s t : Pid F} (h : Like s t) (v : F) (now now' : Int) : Like (({ s with input := v } : Pid F).compute now) (({ t with input := v } : Pid F).compute now') := by
  obtain ⟨kp1, ki1, kd1, r1, inp1, out1, sp1, lt1, cu1, lr1, sa1, lo1, hi1, om1⟩ := s
  obtain ⟨kp2, ki2, kd2, r2, inp2, out2, sp2, lt2, cu2, lr2, sa2, lo2, hi2, om2⟩ := t
  simp only [Like, Pid.mk.injEq] at h
  obtain ⟨rfl, rfl, rfl, rfl, -, rfl, rfl, -, rfl, rfl, rfl, rfl, rfl, rfl⟩ := h
  rfl

theorem Like.output {s t : Pid F} (h : Like s t) : s.output = t.output := by
  have := congrArg Pid.output h
  exact this

theorem Like.symm {s t : Pid F} (h : Like s t) : Like t s := Eq.symm h

theorem Like.trans {s t u : Pid F} (h : Like s t) (h' : Like t u) : Like s u := Eq.trans h h'

/-- **C205.** After any history without `initialize` a controller is as one without a clock would be after the readings that led to computations, the setpoints and the gains alone:
neither other readings nor the times matter. In any arithmetic. -/
theorem C205_timeless {cfg : PidConfig F} {b : Build} (ops : List (Op F)) : ∀ {s s' t : Pid F} {es : List (Op F)}, Like s t → (∀ op ∈ ops, op ≠ .start) → run cfg b s ops = .ok s' →
    seen cfg b s ops = .ok es → ∃ t', timeless b t es = .ok t' ∧ Like s' t' := by
  induction ops with
  | nil =>
    intro s s' t es h _ hr hs
    obtain rfl := Except.ok.inj hr
    obtain rfl := Except.ok.inj hs
    exact ⟨t, rfl, h⟩
  | cons op ops ih =>
    intro s s' t es h hn hr hs
    have hn' : ∀ op ∈ ops, op ≠ Op.start := fun op hop => hn op (by simp [hop])
    obtain ⟨s1, e1, hr⟩ := res_bind hr
    cases op with
    | start => exact absurd rfl (hn _ (by simp))
    | reading v now =>
      obtain ⟨⟨used, s2⟩, e2, e1⟩ := res_bind e1
      obtain rfl := Except.ok.inj e1
      simp only [seen, e2, res_bind_ok] at hs
      obtain ⟨r, e3, hs⟩ := res_bind hs
      cases used with
      | true =>
        obtain rfl := Except.ok.inj hs
        rw [newReading_true e2] at hr e3
        obtain ⟨t', a1, a2⟩ := ih (h.compute v now 0) hn' hr e3
        exact ⟨t', a1, a2⟩
      | false =>
        obtain rfl := Except.ok.inj hs
        rw [newReading_false e2] at hr e3
        exact ih (show Like { s with input := v } t from h) hn' hr e3
    | setpoint v =>
      obtain rfl := Except.ok.inj e1
      obtain ⟨q, e3, hs⟩ := res_bind hs
      obtain ⟨r, e4, hs⟩ := res_bind hs
      obtain rfl := Except.ok.inj hs
      obtain rfl := Except.ok.inj e3
      refine ih (t := { t with setpoint := v }) ?_ hn' hr e4
      obtain ⟨kp1, ki1, kd1, r1, inp1, out1, sp1, lt1, cu1, lr1, sa1, lo1, hi1, om1⟩ := s
      obtain ⟨kp2, ki2, kd2, r2, inp2, out2, sp2, lt2, cu2, lr2, sa2, lo2, hi2, om2⟩ := t
      simp only [Like, Pid.mk.injEq] at h ⊢
      tauto
    | tunings kp ki kd m =>
      obtain ⟨q, e3, hs⟩ := res_bind hs
      obtain ⟨r, e4, hs⟩ := res_bind hs
      obtain rfl := Except.ok.inj hs
      obtain rfl : q = s1 := Except.ok.inj (e3.symm.trans e1)
      obtain ⟨t1, f1, f2⟩ := h.tunings e1
      obtain ⟨t', a1, a2⟩ := ih f2 hn' hr e4
      exact ⟨t', by simp only [timeless, f1, res_bind_ok]; exact a1, a2⟩

/-- **C205.** Two histories with the same setpoints, gains and used readings, in the same order, end with the same output, whatever the times were. -/
theorem C205_jitter {cfg : PidConfig F} {b : Build} {ops ops' : List (Op F)} {s s1 s2 : Pid F} {es : List (Op F)} (hn : ∀ op ∈ ops, op ≠ .start) (hn' : ∀ op ∈ ops', op ≠ .start)
    (h1 : run cfg b s ops = .ok s1) (h2 : run cfg b s ops' = .ok s2) (e1 : seen cfg b s ops = .ok es) (e2 : seen cfg b s ops' = .ok es) :
    Like s1 s2 ∧ s1.output = s2.output := by
  obtain ⟨t1, a1, a2⟩ := C205_timeless ops (rfl : Like s s) hn h1 e1
  obtain ⟨t2, c1, c2⟩ := C205_timeless ops' (rfl : Like s s) hn' h2 e2
  obtain rfl := Except.ok.inj (a1.symm.trans c1)
  have h := a2.trans c2.symm
  exact ⟨h, h.output⟩

/-- Specification: readings at least one sampling period apart, in the first four and a half hours. -/
def Spaced (p : Int) : Int → List (Int × F) → Prop
  | _, [] => True
  | t, (now, _) :: rs => p ≤ now - t ∧ now ≤ 2 ^ 24 ∧ Spaced p now rs

/-- **C205.** A controller that is read late, or irregularly, but never early, gives the same outputs as one that is read on time: the gains count per computation,
not per time that has passed. -/
theorem C205_late (rs : List (Int × F)) : ∀ {s t : Pid F} {rs' : List (Int × F)}, Like s t → 0 < s.sampling → s.sampling ≤ 2 ^ 24 → 0 ≤ s.lastTime → s.lastTime ≤ 2 ^ 24 → 0 ≤ t.lastTime →
    t.lastTime ≤ 2 ^ 24 → Spaced s.sampling s.lastTime rs → Spaced s.sampling t.lastTime rs' → rs.map Prod.snd = rs'.map Prod.snd →
    ∃ s' t' fs, readings s rs = .ok (fs, s') ∧ readings t rs' = .ok (fs, t') ∧ Like s' t' ∧ s'.output = t'.output := by
  induction rs with
  | nil =>
    intro s t rs' h _ _ _ _ _ _ _ _ he
    cases rs' with
    | cons => cases he
    | nil => exact ⟨s, t, [], rfl, rfl, h, h.output⟩
  | cons r rs ih =>
    intro s t rs' h p1 p2 l1 l2 m1 m2 q1 q2 he
    cases rs' with
    | nil => cases he
    | cons r' rs' =>
      obtain ⟨now, v⟩ := r
      obtain ⟨now', v'⟩ := r'
      simp only [List.map_cons, List.cons.injEq] at he
      obtain ⟨rfl, he⟩ := he
      have hsa : t.sampling = s.sampling := (congrArg Pid.sampling h).symm
      obtain ⟨a1, a2, a3⟩ := q1
      obtain ⟨c1, c2, c3⟩ := q2
      have one : ∀ {u : Pid F} {n : Int}, u.sampling = s.sampling → 0 ≤ u.lastTime → u.lastTime ≤ 2 ^ 24 → s.sampling ≤ n - u.lastTime → n ≤ 2 ^ 24 →
          newReading u v n = .ok (true, ({ u with input := v } : Pid F).compute n) := by
        intro u n hu k1 k2 k3 k4
        rw [newReading_pid (by rw [abs_le]; constructor <;> omega) (by rw [abs_le]; constructor <;> omega) (by rw [hu, abs_le]; constructor <;> omega),
          near_eq (by rw [abs_le]; constructor <;> omega), near_eq (by rw [abs_le]; constructor <;> omega), if_pos (by omega)]
      have e1 := one rfl l1 l2 a1 a2
      have e2 := one hsa m1 m2 c1 c2
      obtain ⟨s', t', fs, f1, f2, f3, f4⟩ := ih (h.compute v now now') p1 p2 (by show 0 ≤ now; omega) a2 (by show 0 ≤ now'; omega) c2 a3 c3 he
      exact ⟨s', t', true :: fs, by simp only [readings, e1, res_bind_ok, f1]; rfl, by simp only [readings, e2, res_bind_ok, f2]; rfl, f3, f4⟩

/-! ## Concrete cases -/

/-- Readings on time, and the same ones late: the flags and the outputs are the same. -/
example : (do
    let s ← PID.start (PidConfig.default : PidConfig Rat) (← PID.create (PidConfig.default : PidConfig Rat) .debug 1000)
    let s := { s with setpoint := 20 }
    let (f, a) ← readings s [(1000, 19), (1100, 19), (1200, 18)]
    let (g, c) ← readings s [(1000, 19), (1170, 19), (9000, 18)]
    return (f, g, decide (a.output = c.output ∧ a.output ≠ 0 ∧ a.output ≠ 255)) : Res (List Bool × List Bool × Bool)) = .ok ([true, true, true], [true, true, true], true) := by decide +kernel

example : Spaced 100 900 [(1000, (19 : Rat)), (1170, 19), (9000, 18)] := by simp [Spaced]

/-- A reading in between leaves no trace. -/
example : (do
    let s ← PID.start (PidConfig.default : PidConfig Rat) (← PID.create (PidConfig.default : PidConfig Rat) .debug 1000)
    let e ← seen PidConfig.default .debug s [.setpoint 20, .reading 19 1000, .reading 500 1050, .reading 19 1100]
    return e.length : Res Nat) = .ok 3 := by decide +kernel

/-- Why `initialize` is left out: it takes over the last reading, used or not. -/
example : (do
    let s ← PID.start (PidConfig.default : PidConfig Rat) (← PID.create (PidConfig.default : PidConfig Rat) .debug 1000)
    let a ← run PidConfig.default .debug s [.reading 19 1000, .start]
    let c ← run PidConfig.default .debug s [.reading 19 1000, .reading 500 1050, .start]
    return (a.lastReading, c.lastReading) : Res (Rat × Rat)) = .ok (19, 500) := by decide +kernel

end PID

end Spine
