import Verif.Spec.Control
import Verif.Proofs.Latch
import Verif.Core.Bind
/-!
# Proofs about the PID controller
-/

namespace Spine
open Pid

variable {F : Type} [Arith F]

section limits
variable [LawfulArith F]

theorem clamp_inside {lo hi : F} (x : F) (h : Arith.lt hi lo = false) : Inside (clamp lo hi x) lo hi := by
  unfold clamp Inside
  split_ifs with h1 h2
  · exact ⟨LawfulArith.irrefl _, h⟩
  · exact ⟨h, LawfulArith.irrefl _⟩
  · exact ⟨by simpa using h1, by simpa using h2⟩

theorem not_lt_of_not_le {lo hi : F} (h : Arith.le hi lo = false) : Arith.lt hi lo = false := by
  by_contra hc
  rw [LawfulArith.lt_le _ _ (by simpa using hc)] at h
  cases h

/-- The limits of a controller are in order and its output is inside. -/
def Held (s : Pid F) : Prop := Arith.lt s.hi s.lo = false ∧ Inside s.output s.lo s.hi

theorem Held.exec {b : Build} {s s' : Pid F} {op : Op F} (h : Held s) (he : s.exec b op = .ok s') :
    Held s' ∧ (s'.lo, s'.hi) = limitsAfter (s.lo, s.hi) [op] := by
  cases op with
  | input v => cases he; exact ⟨h, rfl⟩
  | setpoint v => cases he; exact ⟨h, rfl⟩
  | update now =>
    simp only [Pid.exec, update] at he
    obtain ⟨x, hx, h2⟩ := res_bind he
    cases h2
    obtain ⟨d, -, hx⟩ := res_bind hx
    obtain ⟨c, -, hx⟩ := res_bind hx
    split at hx <;> cases hx
    · exact ⟨⟨h.1, clamp_inside _ h.1⟩, rfl⟩
    · exact ⟨h, rfl⟩
  | tunings kp ki kd m =>
    simp only [Pid.exec, setTunings] at he
    obtain ⟨_, -, he⟩ := res_bind he
    obtain ⟨_, -, he⟩ := res_bind he
    obtain ⟨_, -, he⟩ := res_bind he
    cases he
    split <;> exact ⟨h, rfl⟩
  | direction r =>
    cases he
    simp only [setDirection]
    split <;> exact ⟨h, rfl⟩
  | sampling t =>
    simp only [Pid.exec, setSampling] at he
    obtain ⟨_, -, he⟩ := res_bind he
    split at he
    · split at he
      · cases he
      · cases he; exact ⟨h, rfl⟩
    · cases he; exact ⟨h, rfl⟩
  | limits lo hi =>
    cases he
    simp only [setLimits, limitsAfter]
    by_cases hl : Arith.le hi lo = true
    · rw [if_pos hl, if_pos hl]; exact ⟨h, rfl⟩
    · rw [if_neg hl, if_neg hl]
      have := not_lt_of_not_le (by simpa using hl : Arith.le hi lo = false)
      exact ⟨⟨this, clamp_inside _ this⟩, rfl⟩
  | start => cases he; exact ⟨h, rfl⟩

theorem Held.run {b : Build} (ops : List (Op F)) : ∀ {s s' : Pid F}, Held s → s.run b ops = .ok s' →
    Held s' ∧ (s'.lo, s'.hi) = limitsAfter (s.lo, s.hi) ops := by
  induction ops with
  | nil => intro s s' h he; cases he; exact ⟨h, rfl⟩
  | cons op ops ih =>
    intro s s' h he
    obtain ⟨s1, h1, h2⟩ := res_bind he
    obtain ⟨h3, h4⟩ := h.exec h1
    obtain ⟨h5, h6⟩ := ih h3 h2
    refine ⟨h5, h6.trans ?_⟩
    rw [h4]
    cases op <;> rfl

end limits

/-! ### Operations of `PID` in terms of those of `PIDController` -/

/-- The backend operations of an operation on `PID`. -/
def PID.ops (cfg : PidConfig F) : PID.Op F → List (Pid.Op F)
  | .start => [.limits cfg.lower cfg.upper, .sampling cfg.interval, .start]
  | .reading v now => [.input v, .update now]
  | .setpoint v => [.setpoint v]
  | .tunings kp ki kd m => [.tunings kp ki kd m]

theorem PID.exec_eq (cfg : PidConfig F) (b : Build) (s : Pid F) (op : PID.Op F) : PID.exec cfg b s op = s.run b (PID.ops cfg op) := by
  cases op with
  | start => 
    simp only [PID.exec, PID.start, PID.ops, Pid.run, Pid.exec, res_bind_ok, res_pure]
  | reading v now =>
    simp only [PID.exec, PID.newReading, PID.ops, Pid.run, Pid.exec, res_bind_ok, res_pure]
    cases ({ s with input := v } : Pid F).update now <;> rfl
  | setpoint v => rfl
  | tunings kp ki kd m => 
    simp only [PID.exec, PID.ops, Pid.run, Pid.exec]
    cases s.setTunings b kp ki kd m <;> rfl

theorem Pid.run_append {b : Build} (as bs : List (Pid.Op F)) : ∀ s : Pid F, s.run b (as ++ bs) = s.run b as >>= fun s => s.run b bs := by
  induction as with
  | nil => intro s; rfl
  | cons a as ih =>
    intro s
    simp only [List.cons_append, Pid.run]
    cases s.exec b a with
    | error e => rfl
    | ok s1 => simp only [res_bind_ok, ih]

theorem PID.run_eq (cfg : PidConfig F) (b : Build) (ops : List (PID.Op F)) : ∀ s : Pid F, PID.run cfg b s ops = s.run b (ops.flatMap (PID.ops cfg)) := by
  induction ops with
  | nil => intro s; rfl
  | cons op ops ih =>
    intro s
    simp only [PID.run, List.flatMap_cons, Pid.run_append, PID.exec_eq, ih]

theorem limitsAfter_append (as bs : List (Pid.Op F)) : ∀ l : F × F, limitsAfter l (as ++ bs) = limitsAfter (limitsAfter l as) bs := by
  induction as with
  | nil => intro l; rfl
  | cons a as ih => intro l; cases a <;> simp only [List.cons_append, limitsAfter, ih]

theorem limitsAfter_pid {cfg : PidConfig F} (h : Arith.le cfg.upper cfg.lower = false) (ops : List (PID.Op F)) :
    limitsAfter (cfg.lower, cfg.upper) (ops.flatMap (PID.ops cfg)) = (cfg.lower, cfg.upper) := by
  induction ops with
  | nil => rfl
  | cons op ops ih => cases op <;> simp [PID.ops, limitsAfter, h, ih]

theorem create_state {b : Build} {now : Int} {i o sp kp ki kd : F} {m r : Bool} {s : Pid F}
    (h : Pid.create b now i o sp kp ki kd m r = .ok s) :
    s.output = o ∧ s.lo = Arith.ofRat 0 ∧ s.hi = Arith.ofRat 255 ∧ s.sampling = 100 ∧ s.lastReading = Arith.ofRat 0 ∧ s.cumulative = Arith.ofRat 0 := by
  simp only [Pid.create, setTunings] at h
  obtain ⟨s1, h1, h⟩ := res_bind h
  obtain ⟨t, -, h⟩ := res_bind h
  cases h
  obtain ⟨_, -, h1⟩ := res_bind h1
  obtain ⟨_, -, h1⟩ := res_bind h1
  obtain ⟨_, -, h1⟩ := res_bind h1
  cases h1
  simp only [setDirection, negate, fzero]
  cases r <;> simp

/-! ### Sampling -/

theorem msGe_near {a b : Int} (hb : |b| ≤ 2 ^ 62) : msGe a b = .ok (decide (near b ≤ a)) := by
  simp only [msGe, fromOther_mid _ hb, res_bind_ok, res_pure, ge_iff_le]

theorem update_eq {s : Pid F} {now : Int} (h1 : |s.lastTime| ≤ 2 ^ 61) (h2 : |now| ≤ 2 ^ 61) (h3 : |s.sampling| ≤ 2 ^ 62) :
    s.update now = .ok (if near s.sampling ≤ now - near s.lastTime then (true, s.compute now) else (false, s)) := by
  have hn : |near s.lastTime| ≤ 2 ^ 62 := near_small (h1.trans (by norm_num))
  have hi : i64 (now - near s.lastTime) = .ok (now - near s.lastTime) := by
    apply i64_ok; rw [abs_le] at hn h2; unfold InI64; omega
  simp only [update, msSub_near (h1.trans (by norm_num)), hi, msGe_near h3, res_bind_ok, res_pure, decide_eq_true_eq]
  split <;> rfl

theorem newReading_pid {s : Pid F} {now : Int} {v : F} (h1 : |s.lastTime| ≤ 2 ^ 61) (h2 : |now| ≤ 2 ^ 61) (h3 : |s.sampling| ≤ 2 ^ 62) :
    PID.newReading s v now = .ok (if near s.sampling ≤ now - near s.lastTime then (true, ({ s with input := v } : Pid F).compute now)
      else (false, { s with input := v })) :=
  update_eq (s := { s with input := v }) h1 h2 h3

/-- Computations are a sampling period apart, and a reading that is not used comes less than a period after one that is, in the
arithmetic of the code. -/
theorem readings_spec (rs : List (Int × F)) : ∀ (s : Pid F) (hi : Int), |s.lastTime| ≤ 2 ^ 61 → |hi| ≤ 2 ^ 61 → |s.sampling| ≤ 2 ^ 62 → Times s.lastTime rs hi →
    ∃ fs s', PID.readings s rs = .ok (fs, s') ∧ fs.length = rs.length ∧ s'.sampling = s.sampling ∧
      s'.lastTime = (computedAt (rs.map Prod.fst) fs).getLastD s.lastTime ∧ (s.lastTime ≤ hi → s'.lastTime ≤ hi) ∧ s.lastTime ≤ s'.lastTime ∧
      (s.lastTime :: computedAt (rs.map Prod.fst) fs).IsChain (fun a c => near s.sampling ≤ c - near a) := by
  induction rs with
  | nil => intro s hi _ _ _ _; exact ⟨[], s, rfl, rfl, rfl, rfl, id, le_rfl, by simp [computedAt]⟩
  | cons r rs ih =>
    intro s hi h1 h2 h3 ht
    obtain ⟨n, v⟩ := r
    have hn := ht.2 (n, v) (by simp)
    simp only at hn
    have hp := ht.1
    simp only [List.map_cons, List.pairwise_cons] at hp
    have hnb : |n| ≤ 2 ^ 61 := by rw [abs_le] at h1 h2 ⊢; omega
    have hq := newReading_pid (v := v) h1 hnb h3
    by_cases hd : near s.sampling ≤ n - near s.lastTime
    · rw [if_pos hd] at hq
      obtain ⟨fs, s', e1, e2, e3, e4, e5, e6, e7⟩ := ih (({ s with input := v } : Pid F).compute n) hi hnb h2 h3
        ⟨hp.2, fun r hr => ⟨hp.1 r.1 (List.mem_map_of_mem hr), (ht.2 r (by simp [hr])).2⟩⟩
      have hcons : computedAt (List.map Prod.fst ((n, v) :: rs)) (true :: fs) = n :: computedAt (rs.map Prod.fst) fs := by simp [computedAt]
      refine ⟨true :: fs, s', by simp only [PID.readings, hq, e1, res_bind_ok, res_pure], by simp [e2], e3, ?_, ?_, ?_, ?_⟩
      · rw [e4, hcons, List.getLastD_cons]
        rfl
      · intro _; exact e5 hn.2
      · exact hn.1.trans e6
      · rw [hcons]
        exact .cons_cons hd e7
    · rw [if_neg hd] at hq
      obtain ⟨fs, s', e1, e2, e3, e4, e5, e6, e7⟩ := ih ({ s with input := v } : Pid F) hi h1 h2 h3
        ⟨hp.2, fun r hr => ⟨(ht.2 r (by simp [hr])).1, (ht.2 r (by simp [hr])).2⟩⟩
      have : computedAt (List.map Prod.fst ((n, v) :: rs)) (false :: fs) = computedAt (rs.map Prod.fst) fs := by simp [computedAt]
      refine ⟨false :: fs, s', by simp only [PID.readings, hq, e1, res_bind_ok, res_pure], by simp [e2], e3, by rw [this]; exact e4, e5, e6, by rw [this]; exact e7⟩

theorem readings_append (as bs : List (Int × F)) : ∀ s : Pid F, PID.readings s (as ++ bs) =
    (PID.readings s as >>= fun x => PID.readings x.2 bs >>= fun y => .ok (x.1 ++ y.1, y.2)) := by
  induction as with
  | nil =>
    intro s
    simp only [List.nil_append, PID.readings, res_bind_ok]
    cases PID.readings s bs <;> rfl
  | cons r as ih =>
    intro s
    obtain ⟨n, v⟩ := r
    simp only [List.cons_append, PID.readings]
    cases PID.newReading s v n with
    | error e => rfl
    | ok l1 =>
      simp only [res_bind_ok, ih]
      cases PID.readings l1.2 as with
      | error e => rfl
      | ok x =>
        simp only [res_bind_ok, res_pure]
        cases PID.readings x.2 bs <;> rfl

/-! ### The law -/

theorem clamp_rat {lo hi x : Rat} (h1 : lo ≤ x) (h2 : x ≤ hi) : clamp lo hi x = x := by
  simp only [clamp, Arith.lt, decide_eq_true_eq]
  rw [if_neg (not_lt.mpr h2), if_neg (not_lt.mpr h1)]

theorem newReading_true {s s' : Pid F} {v : F} {n : Int} (h : PID.newReading s v n = .ok (true, s')) : s' = ({ s with input := v } : Pid F).compute n := by
  simp only [PID.newReading, update] at h
  obtain ⟨d, -, h⟩ := res_bind h
  obtain ⟨c, -, h⟩ := res_bind h
  split at h <;> cases h
  rfl

theorem newReading_false {s s' : Pid F} {v : F} {n : Int} (h : PID.newReading s v n = .ok (false, s')) : s' = { s with input := v } := by
  simp only [PID.newReading, update] at h
  obtain ⟨d, -, h⟩ := res_bind h
  obtain ⟨c, -, h⟩ := res_bind h
  split at h <;> cases h
  rfl

theorem law_run (rs : List (Int × Rat)) : ∀ (s s' : Pid Rat) (fs : List Bool), PID.readings s rs = .ok (fs, s') → (∀ f ∈ fs, f = true) →
    (∀ p, p <+: rs.map Prod.snd → p ≠ [] → s.lo ≤ carried s.onMeasurement s.kp s.ki s.setpoint s.cumulative s.lastReading p ∧
      carried s.onMeasurement s.kp s.ki s.setpoint s.cumulative s.lastReading p ≤ s.hi) →
    (rs ≠ [] → s.lo ≤ pidLaw s.onMeasurement s.kp s.ki s.kd s.setpoint s.cumulative s.lastReading (rs.map Prod.snd) ∧
      pidLaw s.onMeasurement s.kp s.ki s.kd s.setpoint s.cumulative s.lastReading (rs.map Prod.snd) ≤ s.hi) →
    rs ≠ [] → s'.output = pidLaw s.onMeasurement s.kp s.ki s.kd s.setpoint s.cumulative s.lastReading (rs.map Prod.snd) := by
  induction rs with
  | nil => intro s s' fs _ _ _ _ h; exact absurd rfl h
  | cons r rs ih =>
    intro s s' fs h hf hc ho _
    obtain ⟨n, v⟩ := r
    simp only [PID.readings] at h
    obtain ⟨⟨f, s1⟩, h1, h⟩ := res_bind h
    obtain ⟨⟨fs1, s2⟩, h2, h⟩ := res_bind h
    cases h
    have hf0 : f = true := hf f (by simp)
    subst hf0
    have e1 := newReading_true h1
    have hcum : s1.cumulative = carried s.onMeasurement s.kp s.ki s.setpoint s.cumulative s.lastReading [v] := by
      have := hc [v] (by simp) (by simp)
      rw [e1]
      simp only [compute]
      rw [← clamp_rat this.1 this.2]
      congr 1
      simp only [carried, errorSum, Arith.add, Arith.sub, Arith.mul]
      cases s.onMeasurement <;> simp
    have hlast : s1.lastReading = v := by rw [e1]; rfl
    have hsame : s1.onMeasurement = s.onMeasurement ∧ s1.kp = s.kp ∧ s1.ki = s.ki ∧ s1.kd = s.kd ∧ s1.setpoint = s.setpoint ∧ s1.lo = s.lo ∧ s1.hi = s.hi := by
      rw [e1]; exact ⟨rfl, rfl, rfl, rfl, rfl, rfl, rfl⟩
    obtain ⟨g1, g2, g3, g4, g5, g6, g7⟩ := hsame
    have hcar : ∀ p, p ≠ [] → carried s.onMeasurement s.kp s.ki s.setpoint s1.cumulative v p = carried s.onMeasurement s.kp s.ki s.setpoint s.cumulative s.lastReading (v :: p) := by
      intro p hp
      rw [hcum]
      simp only [carried, errorSum, List.map_cons, List.sum_cons, List.map_nil, List.sum_nil]
      cases p with
      | nil => exact absurd rfl hp
      | cons a p =>
        simp only [List.getLastD_cons]
        cases s.onMeasurement <;> simp <;> ring
    have hlaw : ∀ p, p ≠ [] → pidLaw s.onMeasurement s.kp s.ki s.kd s.setpoint s1.cumulative v p = pidLaw s.onMeasurement s.kp s.ki s.kd s.setpoint s.cumulative s.lastReading (v :: p) := by
      intro p hp
      unfold pidLaw
      rw [hcar p hp]
      cases p with
      | nil => exact absurd rfl hp
      | cons a p =>
        simp only [List.getLastD_cons, previous, List.dropLast_cons_cons]
    cases rs with
    | nil =>
      simp only [PID.readings, Except.ok.injEq, Prod.mk.injEq] at h2
      obtain ⟨-, rfl⟩ := h2
      have := ho (by simp)
      rw [← clamp_rat this.1 this.2, e1]
      simp only [compute]
      congr 1
      have e2 : s1.cumulative = clamp s.lo s.hi (if s.onMeasurement = true then Arith.sub (Arith.add s.cumulative (Arith.mul s.ki (Arith.sub s.setpoint v))) (Arith.mul s.kp (Arith.sub v s.lastReading)) else Arith.add s.cumulative (Arith.mul s.ki (Arith.sub s.setpoint v))) := by
        rw [e1]; rfl
      rw [← e2, hcum]
      simp only [pidLaw, previous, carried, errorSum, fzero, Arith.add, Arith.sub, Arith.mul, Arith.ofRat, List.map_cons, List.map_nil, List.getLastD_cons, List.getLastD_nil, List.dropLast_singleton]
      cases s.onMeasurement <;> simp <;> ring
    | cons r2 rs2 =>
      have := ih s1 s2 fs1 h2 (fun f hf' => hf f (by simp [hf'])) ?_ ?_ (by simp)
      · rw [this, g1, g2, g3, g4, g5, hlast, hlaw _ (by simp)]
        simp
      · intro p hp hne
        rw [g1, g2, g3, g5, hlast, hcar p hne, g6, g7]
        exact hc (v :: p) (by simpa using hp) (by simp)
      · intro _
        rw [g1, g2, g3, g4, g5, hlast, hlaw _ (by simp), g6, g7]
        exact ho (by simp)

end Spine
