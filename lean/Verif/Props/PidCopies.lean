import Verif.Model.PidCopies
import Verif.Core.Bind
/-!
# C152: copies of a PID
-/

namespace Spine

variable {F : Type} [Arith F]

/-! ## Specification: every object is a controller of its own -/

namespace Controllers

/-- What an operation means for the object `h` alone: a copy continues from where the original is, and from then on only its own calls matter. -/
def step (b : Build) (σ : Nat → Option (PidConfig F × Pid F)) : Pids.Op F → Res (Nat → Option (PidConfig F × Pid F))
  | .create h cfg now => do
    let p ← PID.create cfg b now
    return fun k => if k = h then some (cfg, p) else σ k
  | .call h op =>
    match σ h with
    | none => .error .ub
    | some (cfg, p) => do
      let p ← PID.exec cfg b p op
      return fun k => if k = h then some (cfg, p) else σ k
  | .copy h other =>
    match σ other with
    | none => .error .ub
    | some x => .ok fun k => if k = h then some x else σ k
  | .destroy h =>
    match σ h with
    | none => .error .ub
    | some _ => .ok fun k => if k = h then none else σ k

/-- A program. -/
def run (b : Build) (σ : Nat → Option (PidConfig F × Pid F)) : List (Pids.Op F) → Res (Nat → Option (PidConfig F × Pid F))
  | [] => .ok σ
  | op :: ops => do run b (← step b σ op) ops

end Controllers

namespace Pids

/-- The call follows the pointers of the object (for a reading: if it is due). -/
def Follows : PID.Op F → Prop
  | .start => True
  | .reading _ _ => True
  | .setpoint _ => False
  | .tunings _ _ _ _ => False

/-- `initialize` and `new_reading` are called only on objects that were constructed where they are. Others may be made by copying, and be read, set and destroyed. `d` says which objects were
constructed where they are. -/
def InPlace (d : Nat → Prop) : List (Op F) → Prop
  | [] => True
  | .create h _ _ :: ops => InPlace (fun k => k = h ∨ d k) ops
  | .call h op :: ops => (Follows op → d h) ∧ InPlace d ops
  | .copy h other :: ops => InPlace (fun k => d k ∧ (k = h → h = other)) ops
  | .destroy h :: ops => InPlace (fun k => d k ∧ k ≠ h) ops

/-- The controllers that the objects show. -/
def shown (s : Pids F) : Nat → Option (PidConfig F × Pid F) := fun h => (s h).map fun o => (o.cfg, o.pid)

/-- The objects named by `d` have their pointers to themselves. -/
def Own (d : Nat → Prop) (s : Pids F) : Prop := ∀ h o, d h → s h = some o → o.target = h

omit [Arith F] in
theorem shown_set (s : Pids F) (h : Nat) (o : PidObj F) : (s.set h (some o)).shown = fun k => if k = h then some (o.cfg, o.pid) else s.shown k := by
  funext k
  simp only [shown, set]
  split <;> rfl

omit [Arith F] in
theorem own_set {s : Pids F} {d : Nat → Prop} (hs : s.Own d) {h : Nat} {o : PidObj F} (ho : d h → o.target = h) : (s.set h (some o)).Own d := by
  intro k x hd hx
  simp only [set] at hx
  split at hx
  · cases hx; subst_vars; exact ho hd
  · exact hs k x hd hx

/-- The function of the backend leaves the input and the setpoint as they are. -/
def Keeps (f : Pid F → Res (Pid F)) : Prop := ∀ p q, f p = .ok q → q.input = p.input ∧ q.setpoint = p.setpoint

theorem keeps_start (cfg : PidConfig F) : Keeps (PID.start cfg) := by
  intro p q h
  rw [PID.start] at h
  obtain ⟨p₁, h1, h⟩ := res_bind h
  have hk : p₁.input = p.input ∧ p₁.setpoint = p.setpoint := by
    have hl : ∀ lo hi, (p.setLimits lo hi).input = p.input ∧ (p.setLimits lo hi).setpoint = p.setpoint := by
      intro lo hi
      rw [Pid.setLimits]
      split <;> exact ⟨rfl, rfl⟩
    rw [Pid.setSampling] at h1
    obtain ⟨c, -, h1⟩ := res_bind h1
    split at h1
    · split at h1
      · cases h1
      · cases h1; exact hl _ _
    · cases h1; exact hl _ _
  cases h
  exact hk

theorem keeps_compute (now : Int) : Keeps (fun p : Pid F => .ok (p.compute now)) := by
  intro p q h
  cases h
  exact ⟨rfl, rfl⟩

omit [Arith F] in
/-- On an object whose pointers point to itself the backend works as in the model of a single controller. -/
theorem backend_own {s : Pids F} {h : Nat} {o : PidObj F} (ho : s h = some o) (ht : o.target = h) {f : Pid F → Res (Pid F)} (hf : Keeps f) :
    s.backend h f = (do let p ← f o.pid; return s.set h (some { o with pid := p })) := by
  have h1 : s.obj h = .ok o := by rw [obj, ho]
  rw [backend, h1]
  simp only [res_bind_ok, ht, h1]
  have h2 : { o.pid with input := o.pid.input, output := o.pid.output, setpoint := o.pid.setpoint } = o.pid := rfl
  rw [h2]
  cases hp : f o.pid with
  | error e => rfl
  | ok p =>
    have hk := hf _ _ hp
    simp only [res_bind_ok, obj, set, if_true, res_pure, Except.ok.injEq]
    funext k
    by_cases hkh : k = h
    · cases p
      simp only at hk
      simp only [set, hkh, if_true, hk.1, hk.2]
    · simp only [set, hkh, if_false]

/-- A call means what it means for a single controller. -/
theorem call_shown (b : Build) {s : Pids F} {d : Nat → Prop} (hs : s.Own d) (h : Nat) (op : PID.Op F) (hd : Follows op → d h) :
    (s.call b h op).map shown = Controllers.step b s.shown (.call h op) ∧ ∀ s', s.call b h op = .ok s' → s'.Own d := by
  cases ho : s h with
  | none =>
    have h1 : s.obj h = .error .ub := by rw [obj, ho]
    have h2 : s.shown h = none := by rw [shown, ho]; rfl
    have h3 : s.call b h op = .error .ub := by cases op <;> simp only [call, h1] <;> rfl
    rw [h3]
    exact ⟨by simp only [Controllers.step, h2]; rfl, fun _ hh => by cases hh⟩
  | some o =>
    have h1 : s.obj h = .ok o := by rw [obj, ho]
    have h2 : s.shown h = some (o.cfg, o.pid) := by rw [shown, ho]; rfl
    have ht : d h → o.target = h := fun hd => hs h o hd ho
    have key : ∀ r : Res (Pid F), s.call b h op = (do let p ← r; return s.set h (some { o with pid := p })) → PID.exec o.cfg b o.pid op = r →
        (s.call b h op).map shown = Controllers.step b s.shown (.call h op) ∧ ∀ s', s.call b h op = .ok s' → s'.Own d := by
      intro r hr he
      rw [hr]
      simp only [Controllers.step, h2, he]
      cases r with
      | error e => exact ⟨rfl, fun _ hh => by cases hh⟩
      | ok p => exact ⟨congrArg Except.ok (shown_set _ _ _), fun s' hh => by cases hh; exact own_set hs ht⟩
    cases op with
    | start =>
      refine key (PID.start o.cfg o.pid) ?_ rfl
      simp only [call, h1, res_bind_ok]
      exact backend_own ho (ht (hd trivial)) (keeps_start _)
    | reading v now =>
      refine key _ ?_ rfl
      simp only [call, h1, res_bind_ok, PID.exec, PID.newReading, Pid.update]
      cases msSub now o.pid.lastTime with
      | error e => rfl
      | ok t =>
        simp only [res_bind_ok]
        cases Pid.msGe t o.pid.sampling with
        | error e => rfl
        | ok c =>
          cases c with
          | false => rfl
          | true =>
            have hset : (s.set h (some { o with pid := { o.pid with input := v } })) h = some { o with pid := { o.pid with input := v } } := by simp [set]
            simp only [res_bind_ok, if_true]
            rw [backend_own hset (ht (hd trivial)) (keeps_compute now)]
            simp only [res_bind_ok, res_pure, Except.ok.injEq]
            funext k
            simp only [set]
            split <;> rfl
    | setpoint v =>
      exact key _ (by simp only [call, h1, res_bind_ok]; rfl) rfl
    | tunings kp ki kd m =>
      exact key _ (by simp only [call, h1, res_bind_ok]; rfl) rfl

/-- One operation. -/
theorem step_shown (b : Build) {s : Pids F} {d : Nat → Prop} (hs : s.Own d) {op : Op F} {ops : List (Op F)} (hd : InPlace d (op :: ops)) :
    ∃ d', (s.step b op).map shown = Controllers.step b s.shown op ∧ (∀ s', s.step b op = .ok s' → s'.Own d') ∧ InPlace d' ops := by
  cases op with
  | create h cfg now =>
    refine ⟨_, ?_, ?_, hd⟩
    · simp only [step, create, Controllers.step]
      cases PID.create cfg b now with
      | error e => rfl
      | ok p => exact congrArg Except.ok (shown_set _ _ _)
    · intro s' hh
      simp only [step, create] at hh
      obtain ⟨p, -, hh⟩ := res_bind hh
      cases hh
      intro k x hk hx
      simp only [set] at hx
      split at hx
      · cases hx; subst_vars; rfl
      · exact hs k x (hk.resolve_left ‹_›) hx
  | call h op => exact ⟨d, (call_shown b hs h op hd.1).1, (call_shown b hs h op hd.1).2, hd.2⟩
  | copy h other =>
    refine ⟨_, ?_, ?_, hd⟩
    · simp only [step, copy, Controllers.step, shown]
      rw [obj]
      cases ho : s other with
      | none => rfl
      | some o => exact congrArg Except.ok (shown_set _ _ _)
    · intro s' hh
      simp only [step, copy] at hh
      obtain ⟨o, ho, hh⟩ := res_bind hh
      cases hh
      intro k x hk hx
      simp only [set] at hx
      rw [obj] at ho
      split at hx
      · next hkh =>
        cases hx
        have hko : k = other := hkh.trans (hk.2 hkh)
        rw [hko]
        cases hy : s other with
        | none => rw [hy] at ho; cases ho
        | some y => rw [hy] at ho; cases ho; exact hs _ _ (hko ▸ hk.1) hy
      · exact hs k x hk.1 hx
  | destroy h =>
    refine ⟨_, ?_, ?_, hd⟩
    · simp only [step, destroy, Controllers.step, shown]
      rw [obj]
      cases ho : s h with
      | none => rfl
      | some o =>
        refine congrArg Except.ok ?_
        funext k
        simp only [shown, set]
        split <;> rfl
    · intro s' hh
      simp only [step, destroy] at hh
      obtain ⟨o, ho, hh⟩ := res_bind hh
      cases hh
      intro k x hk hx
      simp only [set, hk.2, if_false] at hx
      exact hs k x hk.1 hx

theorem run_shown (b : Build) (ops : List (Op F)) : ∀ (s : Pids F) (d : Nat → Prop), s.Own d → InPlace d ops → (s.run b ops).map shown = Controllers.run b s.shown ops := by
  induction ops with
  | nil => intro s d _ _; rfl
  | cons op ops ih =>
    intro s d hs hd
    obtain ⟨d', h1, h2, h3⟩ := step_shown b hs hd
    rw [run, Controllers.run, ← h1]
    cases hstep : s.step b op with
    | error e => rfl
    | ok s' => exact ih s' d' (h2 s' hstep) h3

/-- **C152**, as far as it holds. In every program in which `initialize` and `new_reading` are called only on objects that were constructed where they are, all objects, copies included, are at any
time as if each was a controller of its own: with the same gains, the same setpoint and the same response, and the same faults. What is missing: copies that are initialized or given readings. -/
theorem C152_in_place_partial (b : Build) (ops : List (Op F)) (h : InPlace (fun _ => False) ops) :
    (run b (fun _ => none) ops).map shown = Controllers.run b (fun _ => none) ops :=
  run_shown b ops _ _ (fun _ _ h => h.elim) h

/-! ## Where it does not hold -/

omit [Arith F] in
theorem backend_other {s s' : Pids F} {h t : Nat} {o : PidObj F} (ho : s h = some o) (ht : o.target = t) (hne : t ≠ h) {f : Pid F → Res (Pid F)}
    (hr : s.backend h f = .ok s') : ∃ o', s' h = some o' ∧ o'.target = t ∧ o'.pid.output = o.pid.output := by
  have h1 : s.obj h = .ok o := by rw [obj, ho]
  rw [backend, h1] at hr
  simp only [res_bind_ok, ht] at hr
  obtain ⟨x, -, hr⟩ := res_bind hr
  obtain ⟨p, -, hr⟩ := res_bind hr
  obtain ⟨y, -, hr⟩ := res_bind hr
  cases hr
  exact ⟨_, (if_neg hne.symm).trans (if_pos rfl), rfl, rfl⟩

/-- **C152** does not hold: a copy does not respond. Whatever calls are made on a `PID` whose pointers point to another one, its own response stays as it was when it was copied. -/
theorem C152_deaf_counterexample (b : Build) (calls : List (PID.Op F)) : ∀ (s s' : Pids F) (h t : Nat) (o : PidObj F), s h = some o → o.target = t → t ≠ h →
    run b s (calls.map (.call h)) = .ok s' → s'.response h = s.response h := by
  induction calls with
  | nil => intro s s' h t o _ _ _ hr; cases hr; rfl
  | cons c calls ih =>
    intro s s' h t o ho ht hne hr
    rw [List.map_cons, run] at hr
    obtain ⟨s₁, h1, hr⟩ := res_bind hr
    have hobj : s.obj h = .ok o := by rw [obj, ho]
    have key : ∃ o', s₁ h = some o' ∧ o'.target = t ∧ o'.pid.output = o.pid.output := by
      simp only [step] at h1
      cases c with
      | start =>
        simp only [call, hobj, res_bind_ok] at h1
        exact backend_other ho ht hne h1
      | reading v now =>
        simp only [call, hobj, res_bind_ok] at h1
        obtain ⟨d, -, h1⟩ := res_bind h1
        obtain ⟨g, -, h1⟩ := res_bind h1
        have hset : (s.set h (some { o with pid := { o.pid with input := v } })) h = some { o with pid := { o.pid with input := v } } := by simp [set]
        split at h1
        · exact backend_other (o := { o with pid := { o.pid with input := v } }) hset ht hne h1
        · cases h1; exact ⟨_, hset, ht, rfl⟩
      | setpoint v =>
        simp only [call, hobj, res_bind_ok] at h1
        cases h1
        exact ⟨{ o with pid := { o.pid with setpoint := v } }, by simp [set], ht, rfl⟩
      | tunings kp ki kd m =>
        simp only [call, hobj, res_bind_ok] at h1
        obtain ⟨p, hp, h1⟩ := res_bind h1
        cases h1
        refine ⟨{ o with pid := p }, by simp [set], ht, ?_⟩
        rw [Pid.setTunings] at hp
        obtain ⟨_, -, hp⟩ := res_bind hp
        obtain ⟨_, -, hp⟩ := res_bind hp
        obtain ⟨_, -, hp⟩ := res_bind hp
        cases hp
        dsimp only
        split <;> rfl
    obtain ⟨o', ho', ht', hout⟩ := key
    rw [ih s₁ s' h t o' ho' ht' hne hr]
    simp only [response, obj, ho', ho, res_bind_ok, res_pure, hout]

/-- **C152** does not hold: a `PID` whose pointers point to one that is gone may not be used; `initialize` and the next reading that is due are undefined behaviour. -/
theorem C152_dangling_counterexample (b : Build) (s : Pids F) (h : Nat) (o : PidObj F) (ho : s h = some o) (hne : o.target ≠ h) (hgone : s o.target = none) :
    s.call b h .start = .error .ub ∧ ∀ v now t, msSub now o.pid.lastTime = .ok t → Pid.msGe t o.pid.sampling = .ok true → s.call b h (.reading v now) = .error .ub := by
  have hobj : s.obj h = .ok o := by rw [obj, ho]
  constructor
  · simp only [call, hobj, res_bind_ok, backend]
    rw [obj, hgone]; rfl
  · intro v now t h1 h2
    simp only [call, hobj, res_bind_ok, h1, h2, if_true, backend]
    have hset : (s.set h (some { o with pid := { o.pid with input := v } })).obj h = .ok { o with pid := { o.pid with input := v } } := by simp [obj, set]
    rw [hset]
    have hgone' : (s.set h (some { o with pid := { o.pid with input := v } })).obj o.target = .error .ub := by simp [obj, set, hne, hgone]
    simp only [res_bind_ok, hgone']
    rfl

/-- Assigning a temporary, `pid = PID(cfg)`: the temporary 1 is constructed, assigned to the object 0 and destroyed. -/
def assignTemporary (cfg : PidConfig F) (now : Int) : List (Op F) := [.create 1 cfg now, .copy 0 1, .destroy 1]

/-- **C152** does not hold: a `PID` to which a temporary was assigned, as in `pid = PID(cfg)`, can not even be initialized. -/
theorem C152_assigned_counterexample (b : Build) (s : Pids F) (cfg : PidConfig F) (now : Int) (p : Pid F) (hp : PID.create cfg b now = .ok p) :
    run b s (assignTemporary cfg now ++ [.call 0 .start]) = .error .ub := by
  simp only [assignTemporary, List.cons_append, List.nil_append, run, step, create, hp, res_bind_ok, res_pure, copy, obj, set, if_true, destroy, call, backend]
  rfl

/-- The configuration of the following case. -/
def plain : PidConfig Rat := { kp := 1, ki := 10, kd := 0, lower := 0, upper := 100 }

/-- A controller for the setpoint 10 with a reading of 4, and a copy of it. -/
def copied : List (Op Rat) := [.create 0 plain 1000, .call 0 .start, .call 0 (.setpoint 10), .call 0 (.reading 4 2000), .copy 1 0]

/-- A reading of a copy that is due: the value is not looked at. The response of the original is set, from its own reading and setpoint. -/
theorem reading_of_copy (b : Build) (s : Pids F) (h t : Nat) (o p : PidObj F) (ho : s h = some o) (hp : s t = some p) (ht : o.target = t) (hne : t ≠ h) {now d : Int}
    (h1 : msSub now o.pid.lastTime = .ok d) (h2 : Pid.msGe d o.pid.sampling = .ok true) (v : F) : ∃ s', s.call b h (.reading v now) = .ok s' ∧
      s'.response t = .ok ({ o.pid with input := p.pid.input, output := p.pid.output, setpoint := p.pid.setpoint }.compute now).output := by
  have hobj : s.obj h = .ok o := by rw [obj, ho]
  have hcall : s.call b h (.reading v now) = (s.set h (some { o with pid := { o.pid with input := v } })).backend h (fun p => .ok (p.compute now)) := by
    simp only [call, hobj, res_bind_ok, h1, h2, if_true]
  obtain ⟨o₁, ho₁⟩ : ∃ o₁ : PidObj F, o₁ = { o with pid := { o.pid with input := v } } := ⟨_, rfl⟩
  have e0 : o₁.target = t := by rw [ho₁]; exact ht
  have e1 : (s.set h (some o₁)).obj h = .ok o₁ := by simp [obj, set]
  have e2 : (s.set h (some o₁)).obj t = .ok p := by simp [obj, set, hne, hp]
  have e3 : ∀ x : PidObj F, ((s.set h (some o₁)).set h (some x)).obj t = .ok p := by
    intro x
    simp [obj, set, hne, hp]
  rw [hcall, ← ho₁, backend, e1]
  simp only [res_bind_ok, e0, e2, e3]
  refine ⟨_, rfl, ?_⟩
  simp only [response, obj, set, if_true, res_bind_ok, res_pure, ho₁]

/-- The responses of the objects 0 and 1 after a program. -/
def responses (ops : List (Op Rat)) : Res (List Rat) := do
  let s ← run .debug (fun _ => none) ops
  return [← s.response 0, ← s.response 1]

/-- The same for controllers of their own. -/
def ideal (ops : List (Op Rat)) : Res (List Rat) := do
  let σ ← Controllers.run .debug (fun _ => none) ops
  return [0, 1].map fun h => ((σ h).map fun x => x.2.output).getD 0

/-- **C152** does not hold: a reading of a copy changes the response of the original, which has had no further reading; the value of the reading does not matter, and the response of the copy stays. As
controllers of their own, the original would stay at 2, and the copy would go to 14 for a reading of 1 and to 0 for one of 99. -/
theorem C152_meddles_counterexample : responses copied = .ok [2, 2] ∧
    responses (copied ++ [.call 1 (.reading 1 3000)]) = .ok [8, 2] ∧ responses (copied ++ [.call 1 (.reading 99 3000)]) = .ok [8, 2] ∧
    ideal copied = .ok [2, 2] ∧ ideal (copied ++ [.call 1 (.reading 1 3000)]) = .ok [2, 14] ∧ ideal (copied ++ [.call 1 (.reading 99 3000)]) = .ok [2, 0] := by
  decide +kernel

/-- A program as in `C152_in_place_partial`: a controller, a copy of it whose setpoint is changed and whose gains are read, and another controller; both controllers are used. -/
example : InPlace (fun _ => False) (copied ++ [.call 1 (.setpoint 20), .create 2 plain 2500, .call 2 .start, .call 0 (.reading 5 3000), .call 2 (.reading 7 3000), .destroy 0]) ∧
    responses (copied ++ [.call 1 (.setpoint 20), .create 2 plain 2500, .call 2 .start, .call 0 (.reading 5 3000), .call 2 (.reading 7 3000)]) = .ok [6, 2] := by
  constructor
  · simp [copied, InPlace, Follows]
  · decide +kernel

/-- `C152_deaf_counterexample` and `C152_dangling_counterexample`: in the program `copied` the object 1 points to the object 0; destroying that makes the next use of the copy undefined behaviour. -/
example : (do let s ← run .release (fun _ => none) copied; return (s 1).map (fun o => o.target) : Res (Option Nat)) = .ok (some 0) ∧
    (run .release (fun _ => none) (copied ++ [.destroy 0, .call 1 (.reading 1 3000)])).map (fun _ => ()) = .error .ub ∧
    (run .release (fun _ => none) (copied ++ [.destroy 0, .call 1 (.setpoint 20)])).map (fun _ => ()) = .ok () := by decide +kernel

/-- `C152_assigned_counterexample`: the constructor succeeds. -/
example : (PID.create plain .debug 1000).map (fun p => p.kp) = .ok 1 := by decide +kernel

end Pids
end Spine
