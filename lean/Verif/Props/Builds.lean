import Verif.Proofs.Carries
import Verif.Model.Vector
import Verif.Model.VectorOwn
import Verif.Model.VectorObjects
import Verif.Model.PoolCopies
import Verif.Model.PipelineText
import Verif.Model.EventThrow
import Verif.Model.EventData
import Verif.Model.HandlerLink
import Verif.Model.PidCopies
import Verif.Model.Autotune
import Verif.Model.Exchange
import Verif.Model.ResultObjects
import Verif.Model.FadeTime
import Verif.Model.AnalogueChain
import Verif.Model.StaticString
import Verif.Model.DateTimeObjects
import Verif.Model.Schedule
import Verif.Model.Interrupt
import Verif.Model.DelimiterView
import Verif.Model.UnreliablePort
import Verif.Model.Fused
import Verif.Props.FilterUnits
import Verif.Props.Vector
import Verif.Props.EventSystem
import Verif.Model.Filter
/-!
# C192: what works in a debug build works in a release build
-/

namespace Spine

section
variable {α : Type} (e : Elem α) (v : Vec α)

theorem carries_rearrange (i : Nat) : Carries (v.rearrange .debug e i) (v.rearrange .release e i) := by unfold Vec.rearrange; carry []
theorem carries_compact : Carries (v.compact .debug e) (v.compact .release e) := by unfold Vec.compact; carry [carries_rearrange]
theorem carries_pushBack (x : α) : Carries (v.pushBack .debug e x) (v.pushBack .release e x) := by unfold Vec.pushBack; carry [carries_compact]
theorem carries_emplaceBack (x : α) : Carries (v.emplaceBack .debug e x) (v.emplaceBack .release e x) := by unfold Vec.emplaceBack; carry [carries_compact]
theorem carries_peekBack : Carries (v.peekBack .debug) (v.peekBack .release) := by unfold Vec.peekBack; carry []
theorem carries_popBack (c : Bool) : Carries (v.popBack .debug e c) (v.popBack .release e c) := by unfold Vec.popBack; carry []
theorem carries_pushFront (x : α) : Carries (v.pushFront .debug e x) (v.pushFront .release e x) := by unfold Vec.pushFront; carry []
theorem carries_peekFront : Carries (v.peekFront .debug) (v.peekFront .release) := by unfold Vec.peekFront; carry []
theorem carries_popFront (c : Bool) : Carries (v.popFront .debug e c) (v.popFront .release e c) := by unfold Vec.popFront; carry []
theorem carries_insert (i : Nat) (x : α) : Carries (v.insert .debug e i x) (v.insert .release e i x) := by
  unfold Vec.insert; carry [carries_pushFront, carries_pushBack, carries_compact]
theorem carries_remove (i : Nat) : Carries (v.remove .debug e i) (v.remove .release e i) := by unfold Vec.remove; carry [carries_popFront, carries_popBack]
theorem carries_clearLoop (n : Nat) : ∀ v : Vec α, Carries (v.clearLoop .debug e n) (v.clearLoop .release e n) := by
  induction n with
  | zero => intro v; exact Carries.refl _
  | succ n ih => intro v; unfold Vec.clearLoop; carry [carries_popBack, ih]
theorem carries_clear : Carries (v.clear .debug e) (v.clear .release e) := carries_clearLoop e _ v
theorem carries_get (i : Nat) : Carries (v.get .debug i) (v.get .release i) := by unfold Vec.get; carry []
theorem carries_put (i : Nat) (x : α) : Carries (v.put .debug i x) (v.put .release i x) := by unfold Vec.put; carry []
theorem carries_step (op : Vec.Op α) : Carries (v.step .debug e op) (v.step .release e op) := by
  cases op <;> unfold Vec.step <;>
    carry [carries_pushBack, carries_emplaceBack, carries_pushFront, carries_insert, carries_popFront, carries_popBack, carries_remove, carries_clear, carries_put, carries_get,
      carries_peekFront, carries_peekBack]

theorem carries_run (ops : List (Vec.Op α)) : ∀ v : Vec α, Carries (v.run .debug e ops) (v.run .release e ops) := by
  induction ops with
  | nil => intro v; exact Carries.refl _
  | cons op ops ih => intro v; unfold Vec.run; carry [carries_step, ih]
theorem carries_slotOf (k : Nat) : Carries (v.slotOf .debug k) (v.slotOf .release k) := by unfold Vec.slotOf; carry []
theorem carries_pushBackSlot (s : Nat) : Carries (v.pushBackSlot .debug e s) (v.pushBackSlot .release e s) := by unfold Vec.pushBackSlot; carry [carries_compact]
theorem carries_pushFrontSlot (s : Nat) : Carries (v.pushFrontSlot .debug e s) (v.pushFrontSlot .release e s) := by unfold Vec.pushFrontSlot; carry []
theorem carries_insertSlot (i s : Nat) : Carries (v.insertSlot .debug e i s) (v.insertSlot .release e i s) := by
  unfold Vec.insertSlot; carry [carries_pushBackSlot, carries_pushFrontSlot, carries_compact]

end

/-! ## Pools -/

section
variable {ω : Type} [DecidableEq ω]

theorem carries_populate (p : Pool ω) (o : ω) : Carries (p.populate .debug o) (p.populate .release o) := by unfold Pool.populate; carry [carries_emplaceBack]
theorem carries_depopulate (p : Pool ω) : Carries (p.depopulate .debug) (p.depopulate .release) := by unfold Pool.depopulate; carry [carries_popFront]
theorem carries_scanBack (n : Nat) : ∀ p : Pool ω, Carries (p.scanBack .debug n) (p.scanBack .release n) := by
  induction n with
  | zero => intro p; exact Carries.refl _
  | succ n ih => intro p; unfold Pool.scanBack; carry [carries_get, ih]
theorem carries_scanFront (p : Pool ω) (k n : Nat) : ∀ i, Carries (p.scanFront .debug k i n) (p.scanFront .release k i n) := by
  induction n with
  | zero => intro i; exact Carries.refl _
  | succ n ih => intro i; unfold Pool.scanFront; carry [carries_get, ih]
theorem carries_acquire (p : Pool ω) (n : Nat) : Carries (p.acquire .debug n) (p.acquire .release n) := by unfold Pool.acquire; carry [carries_scanBack, carries_scanFront]
theorem carries_destroyLoop (n : Nat) : ∀ (p : Pool ω) (i : Nat), Carries (p.destroyLoop .debug i n) (p.destroyLoop .release i n) := by
  induction n with
  | zero => intro p i; exact Carries.refl _
  | succ n ih => intro p i; unfold Pool.destroyLoop; carry [carries_depopulate, ih]
theorem carries_destroy (p : Pool ω) (n : Nat) : Carries (p.destroy .debug n) (p.destroy .release n) := by unfold Pool.destroy; carry [carries_destroyLoop]
theorem carries_pools_acquire (s : Pools ω) (h n : Nat) : Carries (s.acquire .debug h n) (s.acquire .release h n) := by unfold Pools.acquire; carry [carries_acquire]
theorem carries_pools_destroy (s : Pools ω) (h n : Nat) : Carries (s.destroy .debug h n) (s.destroy .release h n) := by unfold Pools.destroy; carry [carries_destroy]

end

/-! ## Alarms, pipelines and event systems -/

theorem carries_alarm (now future : Int) (absolute : Bool) : Carries (Alarm.create .debug now future absolute) (Alarm.create .release now future absolute) := by
  constructor
  intro a h
  cases absolute
  · exact h
  · simp only [Alarm.create, if_true, res_bind_ok, and_self, reduceCtorEq, and_false, if_false] at h ⊢
    obtain ⟨c, -, h3⟩ := res_bind h
    obtain ⟨_, -, h5⟩ := res_bind h3
    exact h5

section
variable {ω δ : Type} [DecidableEq ω]

theorem carries_reschedule (e : Event δ) (t now : Int) : Carries (e.reschedule .debug t now) (e.reschedule .release t now) := by unfold Event.reschedule; carry [carries_alarm]
theorem carries_containsExpired (p : Pipe ω δ) (now : Int) : Carries (p.containsExpired .debug now) (p.containsExpired .release now) := by
  unfold Pipe.containsExpired; carry [carries_peekFront]
theorem carries_timeUntilNext (p : Pipe ω δ) (now : Int) : Carries (p.timeUntilNext .debug now) (p.timeUntilNext .release now) := by
  unfold Pipe.timeUntilNext; carry [carries_peekFront]

/-- Asking twice is the same as asking once, if the answer is yes. -/
theorem expired_twice {p q : Pipe ω δ} {x : Option ω} {now : Int} (h : p.expired x now = .ok (true, q)) : q.expired x now = .ok (true, q) := by
  unfold Pipe.expired at h
  obtain ⟨o, h1, h2⟩ := res_bind h
  obtain ⟨⟨r, timer⟩, h3, h4⟩ := res_bind h2
  simp only [res_pure, Except.ok.injEq, Prod.mk.injEq] at h4
  obtain ⟨rfl, rfl⟩ := h4
  have ht : timer.expired = true := by
    unfold Alarm.poll at h3
    split at h3
    · next he => simp only [Except.ok.injEq, Prod.mk.injEq] at h3; rw [← h3.2]; exact he
    · obtain ⟨c, -, h5⟩ := res_bind h3
      cases c
      · simp only [Bool.false_eq_true, if_false, res_pure, Except.ok.injEq, Prod.mk.injEq] at h5; cases h5.1
      · simp only [if_true, res_pure, Except.ok.injEq, Prod.mk.injEq] at h5
        rw [← h5.2]
  simp only [Pipe.expired, h1, res_bind_ok, Pipe.store, if_true, Alarm.poll, ht, res_pure]
  congr 3
  funext y
  by_cases hy : y = o <;> simp [hy]

theorem carries_expire (p : Pipe ω δ) (now : Int) : Carries (p.expire .debug now) (p.expire .release now) := by
  unfold Pipe.expire
  refine Carries.bind (Carries.asserts _ _) fun _ => Carries.ite (fun _ => Carries.refl _) fun _ => ?_
  refine Carries.bind (carries_popFront _ _ _) ?_
  rintro ⟨x, vec⟩
  refine Carries.bind (Carries.asserts _ _) fun _ => ?_
  generalize ({ p with vec := vec } : Pipe ω δ) = p
  constructor
  intro y h
  obtain ⟨q, h1, h2⟩ := res_bind h
  simp only [Pipe.assertExpired] at h1
  obtain ⟨⟨r, q'⟩, h3, h4⟩ := res_bind h1
  obtain ⟨u, h5, h6⟩ := res_bind h4
  cases r
  · cases h5
  · simp only [res_pure, Except.ok.injEq] at h6
    subst h6
    rw [expired_twice h3] at h2
    simp only [Pipe.assertExpired, res_bind_ok, h3]
    exact h2

theorem carries_place (p : Pipe ω δ) (o : ω) (i : Option Nat) : Carries (p.place .debug o i) (p.place .release o i) := by
  cases i <;> unfold Pipe.place <;> carry [carries_insert, carries_pushBack]
theorem carries_push (p : Pipe ω δ) (x : Option ω) (now : Int) (reads : Nat → Int × Int) : Carries (p.push .debug x now reads) (p.push .release x now reads) := by
  unfold Pipe.push; carry [carries_reschedule, carries_place]
theorem carries_pipe_step (p : Pipe ω δ) (op : Agenda.Op ω) : Carries (p.step .debug op) (p.step .release op) := by
  cases op <;> unfold Pipe.step <;> carry [carries_push, carries_expire, carries_containsExpired, carries_timeUntilNext]
theorem carries_pipe_run (ops : List (Agenda.Op ω)) : ∀ p : Pipe ω δ, Carries (p.run .debug ops) (p.run .release ops) := by
  induction ops with
  | nil => intro p; exact Carries.refl _
  | cons op ops ih => intro p; unfold Pipe.run; carry [carries_pipe_step, ih]
theorem carries_toText (p : Pipe ω δ) (room : Nat → Nat) (reads reads' : Nat → Int) : Carries (p.toText .debug room reads reads') (p.toText .release room reads reads') := by
  unfold Pipe.toText; carry []

end

section
variable {ω δ H : Type} [DecidableEq ω]

theorem carries_foldlM {α β : Type} {f g : β → α → Res β} (h : ∀ s x, Carries (f s x) (g s x)) (xs : List α) : ∀ s, Carries (xs.foldlM f s) (xs.foldlM g s) := by
  induction xs with
  | nil => intro s; exact Carries.refl _
  | cons x xs ih => intro s; simp only [List.foldlM_cons]; carry [h, ih]

theorem carries_es_create (cfg : Config) (objs : List ω) (blank : δ) (now : Int) :
    Carries (ES.create .debug cfg objs blank now : Res (ES ω δ H)) (ES.create .release cfg objs blank now) := by
  unfold ES.create
  refine Carries.bind (carries_foldlM (fun s x => carries_populate s x) _ _) fun _ => Carries.refl _

variable (s : ES ω δ H)

theorem carries_attach (id : Nat) (h : Option H) : Carries (s.attach .debug id h) (s.attach .release id h) := by unfold ES.attach; carry [carries_pushBack]
theorem carries_fetch (id : Nat) (delay : Int) (data : δ) : Carries (s.fetch .debug id delay data) (s.fetch .release id delay data) := by unfold ES.fetch; carry [carries_acquire]
theorem carries_event (id : Nat) (delay : Int) (data : δ) : Carries (s.event .debug id delay data) (s.event .release id delay data) := by unfold ES.event; carry [carries_fetch]
theorem carries_enqueue (x : Option ω) : Carries (s.enqueue .debug x) (s.enqueue .release x) := by unfold ES.enqueue; carry [carries_push]
theorem carries_schedule (id : Nat) (delay : Int) (data : δ) : Carries (s.schedule .debug id delay data) (s.schedule .release id delay data) := by
  unfold ES.schedule; carry [carries_fetch, carries_enqueue]
theorem carries_sleep : Carries (s.sleep .debug) (s.sleep .release) := by unfold ES.sleep; carry [carries_timeUntilNext]

theorem carries_triggerId {call call' : ES ω δ H → Event δ → Res (ES ω δ H)} (hc : ∀ s e, Carries (call s e) (call' s e)) (id : Nat) (data : δ) :
    Carries (s.triggerId .debug call id data) (s.triggerId .release call' id data) := by unfold ES.triggerId; carry [carries_fetch, hc]

theorem carries_exec {call call' : ES ω δ H → Event δ → Res (ES ω δ H)} {poll poll' : ES ω δ H → Res (ES ω δ H)} (hc : ∀ s e, Carries (call s e) (call' s e))
    (hp : ∀ s, Carries (poll s) (poll' s)) (k : Prog ω δ H) : ∀ s, Carries (ES.exec .debug call poll s k) (ES.exec .release call' poll' s k) := by
  induction k <;> intro s <;> unfold ES.exec <;> carry [carries_schedule, carries_triggerId, carries_event, carries_enqueue, carries_attach, hc, hp, ‹∀ _, _›]

theorem carries_visit {f f' : ES ω δ H → Option H → Res (ES ω δ H)} (h : ∀ s x, Carries (f s x) (f' s x)) (id n : Nat) : ∀ i s, Carries (ES.visit f id n i s) (ES.visit f' id n i s) := by
  induction n with
  | zero => intro i s; exact Carries.refl _
  | succ n ih => intro i s; unfold ES.visit; carry [h, ih]

theorem carries_drainWith {call call' : ES ω δ H → Event δ → Res (ES ω δ H)} (hc : ∀ s e, Carries (call s e) (call' s e)) (depth n : Nat) :
    ∀ s, Carries (ES.drainWith .debug call depth n s) (ES.drainWith .release call' depth n s) := by
  induction n with
  | zero => intro s; exact Carries.refl _
  | succ n ih => intro s; unfold ES.drainWith; carry [carries_containsExpired, carries_expire, hc, ih]

theorem carries_loopWith {call call' : ES ω δ H → Event δ → Res (ES ω δ H)} (hc : ∀ s e, Carries (call s e) (call' s e)) (depth n : Nat) :
    Carries (s.loopWith .debug call depth n) (s.loopWith .release call' depth n) := by
  unfold ES.loopWith; carry [carries_drainWith, carries_sleep, hc]

theorem carries_trigger (beh : Behaviour ω δ H) (rounds n : Nat) : ∀ depth s e, Carries (ES.trigger .debug beh rounds n depth s e) (ES.trigger .release beh rounds n depth s e) := by
  induction n with
  | zero => intro depth s e; exact Carries.refl _
  | succ n ih =>
    intro depth s e
    unfold ES.trigger ES.handle
    carry [carries_visit, carries_exec, carries_loopWith, ih]

theorem carries_es_run (beh : Behaviour ω δ H) (nest fuel : Nat) (p : Prog ω δ H) : Carries (s.run .debug beh nest fuel p) (s.run .release beh nest fuel p) := by
  unfold ES.run ES.loop; carry [carries_exec, carries_trigger, carries_loopWith]

theorem carries_es_destroy (n : Nat) : Carries (s.destroy .debug n) (s.destroy .release n) := by unfold ES.destroy; carry [carries_destroyLoop, carries_destroy]

/-! ### Handlers that throw -/

theorem carries_triggerIdT {call call' : ES ω δ H → Event δ → Res (Bool × ES ω δ H)} (hc : ∀ s e, Carries (call s e) (call' s e)) (id : Nat) (data : δ) :
    Carries (s.triggerIdT .debug call id data) (s.triggerIdT .release call' id data) := by unfold ES.triggerIdT; carry [carries_fetch, hc]

theorem carries_execT {call call' : ES ω δ H → Event δ → Res (Bool × ES ω δ H)} {poll poll' : ES ω δ H → Res (Bool × ES ω δ H)} (hc : ∀ s e, Carries (call s e) (call' s e))
    (hp : ∀ s, Carries (poll s) (poll' s)) (k : ThrowProg ω δ H) : ∀ s, Carries (ES.execT .debug call poll s k) (ES.execT .release call' poll' s k) := by
  induction k <;> intro s <;> unfold ES.execT <;> carry [carries_schedule, carries_triggerIdT, carries_event, carries_enqueue, carries_attach, hc, hp, ‹∀ _, _›]

theorem carries_visitT {f f' : ES ω δ H → Option H → Res (Bool × ES ω δ H)} (h : ∀ s x, Carries (f s x) (f' s x)) (id n : Nat) : ∀ i s, Carries (ES.visitT f id n i s) (ES.visitT f' id n i s) := by
  induction n with
  | zero => intro i s; exact Carries.refl _
  | succ n ih => intro i s; unfold ES.visitT; carry [h, ih]

theorem carries_drainT {call call' : ES ω δ H → Event δ → Res (Bool × ES ω δ H)} (hc : ∀ s e, Carries (call s e) (call' s e)) (depth n : Nat) :
    ∀ s, Carries (ES.drainT .debug call depth n s) (ES.drainT .release call' depth n s) := by
  induction n with
  | zero => intro s; exact Carries.refl _
  | succ n ih => intro s; unfold ES.drainT; carry [carries_containsExpired, carries_expire, hc, ih]

theorem carries_loopT {call call' : ES ω δ H → Event δ → Res (Bool × ES ω δ H)} (hc : ∀ s e, Carries (call s e) (call' s e)) (depth n : Nat) :
    Carries (s.loopT .debug call depth n) (s.loopT .release call' depth n) := by
  unfold ES.loopT; carry [carries_drainT, carries_sleep, hc]

theorem carries_triggerT (beh : ThrowBehaviour ω δ H) (rounds n : Nat) : ∀ depth s e, Carries (ES.triggerT .debug beh rounds n depth s e) (ES.triggerT .release beh rounds n depth s e) := by
  induction n with
  | zero => intro depth s e; exact Carries.refl _
  | succ n ih =>
    intro depth s e
    unfold ES.triggerT ES.handleT
    carry [carries_visitT, carries_execT, carries_loopT, ih]

theorem carries_runT (beh : ThrowBehaviour ω δ H) (nest fuel : Nat) (p : ThrowProg ω δ H) : Carries (s.runT .debug beh nest fuel p) (s.runT .release beh nest fuel p) := by
  unfold ES.runT; carry [carries_execT, carries_triggerT, carries_loopT]

end

theorem carries_read {α : Type} (get : EvValue → Option α) (default : α) (d : EvData) : Carries (EvData.read .debug get default d) (EvData.read .release get default d) := by
  unfold EvData.read; carry []

theorem carries_attachSystem (s : HandlerLink) (e : Option Nat) : Carries (s.attachSystem .debug e) (s.attachSystem .release e) := by unfold HandlerLink.attachSystem; carry []
theorem carries_use (s : HandlerLink) : Carries (s.use .debug) (s.use .release) := by unfold HandlerLink.use HandlerLink.system; carry []
theorem carries_link (ops : List HandlerLink.Op) : ∀ s : HandlerLink, Carries (s.run .debug ops) (s.run .release ops) := by
  induction ops with
  | nil => intro s; exact Carries.refl _
  | cons op ops ih => intro s; cases op <;> unfold HandlerLink.run <;> carry [carries_attachSystem, carries_use, ih]

/-! ## Controllers -/

section
variable {F : Type} [Arith F]

theorem carries_setTunings (s : Pid F) (kp ki kd : F) (m : Bool) : Carries (s.setTunings .debug kp ki kd m) (s.setTunings .release kp ki kd m) := by unfold Pid.setTunings; carry []
theorem carries_backend_create (now : Int) (input output setpoint kp ki kd : F) (m r : Bool) :
    Carries (Pid.create .debug now input output setpoint kp ki kd m r) (Pid.create .release now input output setpoint kp ki kd m r) := by unfold Pid.create; carry [carries_setTunings]
theorem carries_backend_run (ops : List (Pid.Op F)) : ∀ s : Pid F, Carries (s.run .debug ops) (s.run .release ops) := by
  induction ops with
  | nil => intro s; exact Carries.refl _
  | cons op ops ih => intro s; unfold Pid.run; cases op <;> unfold Pid.exec <;> carry [carries_setTunings, ih]
theorem carries_pid_create (cfg : PidConfig F) (now : Int) : Carries (PID.create cfg .debug now) (PID.create cfg .release now) := by unfold PID.create; carry [carries_backend_create]
theorem carries_pid_run (cfg : PidConfig F) (ops : List (PID.Op F)) : ∀ s : Pid F, Carries (PID.run cfg .debug s ops) (PID.run cfg .release s ops) := by
  induction ops with
  | nil => intro s; exact Carries.refl _
  | cons op ops ih => intro s; unfold PID.run; cases op <;> unfold PID.exec <;> carry [carries_setTunings, ih]
theorem carries_response (isnan : F → Bool) (s : Pid F) : Carries (PID.response .debug isnan s) (PID.response .release isnan s) := by unfold PID.response; carry []
theorem carries_pids_call (s : Pids F) (h : Nat) (op : PID.Op F) : Carries (s.call .debug h op) (s.call .release h op) := by cases op <;> unfold Pids.call <;> carry [carries_setTunings]
theorem carries_pids_run (ops : List (Pids.Op F)) : ∀ s : Pids F, Carries (s.run .debug ops) (s.run .release ops) := by
  induction ops with
  | nil => intro s; exact Carries.refl _
  | cons op ops ih => intro s; unfold Pids.run; cases op <;> unfold Pids.step Pids.create <;> carry [carries_pid_create, carries_pids_call, ih]

theorem carries_preheat {σ : Type} (E : Plant σ F) (logs : Bool) (lower upper startpoint : F) (fuel : Nat) (w : σ) :
    Carries (Plant.preheat E .debug logs lower upper startpoint fuel w) (Plant.preheat E .release logs lower upper startpoint fuel w) := by unfold Plant.preheat; carry [carries_alarm]
theorem carries_tuning {σ : Type} (E : Plant σ F) (lower upper : F) (interval : Int) (fuel n : Nat) : ∀ (t : Tuner F) (c k : Int) (w : σ),
    Carries (Plant.tuning E .debug lower upper interval fuel n t c k w) (Plant.tuning E .release lower upper interval fuel n t c k w) := by
  induction n with
  | zero => intro t c k w; exact Carries.refl _
  | succ n ih => intro t c k w; unfold Plant.tuning; carry [ih]
theorem carries_autotune {σ : Type} (E : Plant σ F) (logs : Bool) (lower upper : F) (interval : Int) (c : Plant.Config F) (fuel : Nat) (w : σ) :
    Carries (Plant.autotune E .debug logs lower upper interval c fuel w) (Plant.autotune E .release logs lower upper interval c fuel w) := by
  unfold Plant.autotune; carry [carries_preheat, carries_tuning]

end

/-! ## Streams -/

section
variable {σ : Type}

theorem carries_ring {α : Type} (n : Nat) (x : α) : Carries (Ring.create .debug n x) (Ring.create .release n x) := by unfold Ring.create; carry []
theorem carries_lines (n : Nat) (d : List Byte) : Carries (LineBuf.create .debug n d) (LineBuf.create .release n d) := by unfold LineBuf.create; carry [carries_ring]
theorem carries_stream (stream : σ) (n m : Nat) (d : List Byte) : Carries (BufStream.create .debug stream n m d) (BufStream.create .release stream n m d) := by
  unfold BufStream.create; carry [carries_lines]
theorem carries_mock (n m : Nat) : Carries (Mock.create .debug n m) (Mock.create .release n m) := by unfold Mock.create; carry [carries_ring]

theorem carries_new (s : BufStream σ) : Carries (Transaction.new .debug s) (Transaction.new .release s) := by unfold Transaction.new Transaction.open'; carry []
theorem carries_incoming (t : Transaction) (s : BufStream σ) : Carries (t.incoming .debug s) (t.incoming .release s) := by unfold Transaction.incoming; carry []
theorem carries_outgoingChar (t : Transaction) (s : BufStream σ) (v : Byte) : Carries (t.outgoingChar .debug s v) (t.outgoingChar .release s v) := by unfold Transaction.outgoingChar; carry []
theorem carries_outgoing (t : Transaction) (s : BufStream σ) (vs : List Byte) : Carries (t.outgoing .debug s vs) (t.outgoing .release s vs) := by unfold Transaction.outgoing; carry []
theorem carries_finalize (t : Transaction) (s : BufStream σ) : Carries (t.finalize .debug s) (t.finalize .release s) := by unfold Transaction.finalize; carry []
theorem carries_commit (t : Transaction) (s : BufStream σ) : Carries (t.commit .debug s) (t.commit .release s) := by unfold Transaction.commit; carry [carries_finalize]
theorem carries_abort (t : Transaction) (s : BufStream σ) : Carries (t.abort .debug s) (t.abort .release s) := by unfold Transaction.abort; carry [carries_finalize]
theorem carries_done (t : Transaction) (s : BufStream σ) : Carries (t.destroy .debug s) (t.destroy .release s) := by unfold Transaction.destroy; carry [carries_finalize]
theorem carries_reply (ps : List Transaction.Piece) : ∀ (t : Transaction) (s : BufStream σ), Carries (t.reply .debug s ps) (t.reply .release s ps) := by
  induction ps with
  | nil => intro t s; exact Carries.refl _
  | cons p ps ih => intro t s; cases p <;> unfold Transaction.reply <;> carry [carries_outgoingChar, carries_outgoing, ih]
theorem carries_ends (es : List Transaction.End) : ∀ (t : Transaction) (s : BufStream σ), Carries (t.ends .debug s es) (t.ends .release s es) := by
  induction es with
  | nil => intro t s; exact Carries.refl _
  | cons p ps ih => intro t s; cases p <;> unfold Transaction.ends <;> carry [carries_commit, carries_abort, ih]

theorem carries_serve (f : List Byte → List Byte) (M : Nat) (s : BufStream σ) (g : Device.Log) (how : Server.How) : Carries (Server.serve .debug f M s g how) (Server.serve .release f M s g how) := by
  cases how <;> unfold Server.serve <;> carry [carries_new, carries_incoming, carries_outgoing, carries_commit, carries_done]
theorem carries_server_step (P : Port σ) (f : List Byte → List Byte) (M fuel : Nat) (s : BufStream σ) (g : Device.Log) (op : Server.Op) :
    Carries (Server.step P .debug f M fuel s g op) (Server.step P .release f M fuel s g op) := by cases op <;> unfold Server.step <;> carry [carries_serve]
theorem carries_server_run (P : Port σ) (f : List Byte → List Byte) (M fuel : Nat) (ops : List Server.Op) : ∀ (s : BufStream σ) (g : Device.Log),
    Carries (Server.run P .debug f M fuel s g ops) (Server.run P .release f M fuel s g ops) := by
  induction ops with
  | nil => intro s g; exact Carries.refl _
  | cons op ops ih => intro s g; unfold Server.run; carry [carries_server_step, ih]
theorem carries_exchange_step {τ : Type} (P : Port σ) (Q : Port τ) (f : List Byte → List Byte) (fin : Byte) (M fuel : Nat) (st : Exchange.State σ τ) (op : Exchange.Op) :
    Carries (Exchange.step P Q .debug f fin M fuel st op) (Exchange.step P Q .release f fin M fuel st op) := by cases op <;> unfold Exchange.step <;> carry [carries_serve]
theorem carries_exchange_run {τ : Type} (P : Port σ) (Q : Port τ) (f : List Byte → List Byte) (fin : Byte) (M fuel : Nat) (ops : List Exchange.Op) : ∀ st : Exchange.State σ τ,
    Carries (Exchange.run P Q .debug f fin M fuel st ops) (Exchange.run P Q .release f fin M fuel st ops) := by
  induction ops with
  | nil => intro st; exact Carries.refl _
  | cons op ops ih => intro st; unfold Exchange.run; carry [carries_exchange_step, ih]

end

/-! ## Results -/

section
variable {S : Types} {t e i : S.Code} {σ : Type}

theorem carries_errorValue (r : Result S t e i) : Carries (r.errorValue .debug) (r.errorValue .release) := by unfold Result.errorValue; carry []
theorem carries_intermediaryValue (r : Result S t e i) : Carries (r.intermediaryValue .debug) (r.intermediaryValue .release) := by unfold Result.intermediaryValue; carry []
theorem carries_value (r : Result S t e i) : Carries (r.value .debug) (r.value .release) := by unfold Result.value; carry []
theorem carries_unwrap (r : Result S t e i) : Carries (r.unwrap .debug) (r.unwrap .release) := by unfold Result.unwrap; carry []
theorem carries_mut (r : Result S t e i) : Carries (r.intermediaryValueMut .debug) (r.intermediaryValueMut .release) := by unfold Result.intermediaryValueMut; carry []
theorem carries_chain (r : Result S t e i) {f f' : S.El i → σ → Res (Result S t e i × σ)} (hf : ∀ x w, Carries (f x w) (f' x w)) (w : σ) :
    Carries (r.chain .debug f w) (r.chain .release f' w) := by unfold Result.chain; carry [carries_mut, hf]
theorem carries_chains {fs fs' : List (S.El i → σ → Res (Result S t e i × σ))} (hf : List.Forall₂ (fun f f' => ∀ x w, Carries (f x w) (f' x w)) fs fs') :
    ∀ (r : Result S t e i) (w : σ), Carries (r.chains .debug fs w) (r.chains .release fs' w) := by
  induction hf with
  | nil => intro r w; exact Carries.refl _
  | cons h _ ih => intro r w; unfold Result.chains; carry [carries_chain, h, ih]
theorem carries_map {t' : S.Code} (r : Result S t e i) {f f' : S.El t → Res (S.El t')} (hf : ∀ x, Carries (f x) (f' x)) : Carries (r.map .debug f) (r.map .release f') := by
  unfold Result.map; carry [carries_value, carries_errorValue, carries_intermediaryValue, hf]
theorem carries_mapError {e' : S.Code} (r : Result S t e i) {f f' : S.El e → Res (S.El e')} (hf : ∀ x, Carries (f x) (f' x)) : Carries (r.mapError .debug f) (r.mapError .release f') := by
  unfold Result.mapError; carry [carries_value, carries_errorValue, carries_intermediaryValue, hf]
theorem carries_mapIntermediary {i' : S.Code} (r : Result S t e i) {f f' : S.El i → Res (S.El i')} (hf : ∀ x, Carries (f x) (f' x)) :
    Carries (r.mapIntermediary .debug f) (r.mapIntermediary .release f') := by
  unfold Result.mapIntermediary; carry [carries_value, carries_errorValue, carries_intermediaryValue, hf]
theorem carries_andThen {t' : S.Code} (r : Result S t e i) {f f' : S.El t → Res (Result S t' e i)} (hf : ∀ x, Carries (f x) (f' x)) : Carries (r.andThen .debug f) (r.andThen .release f') := by
  unfold Result.andThen; carry [carries_value, carries_errorValue, carries_intermediaryValue, hf]
theorem carries_orElse {e' : S.Code} (r : Result S t e i) {f f' : S.El e → Res (Result S t e' i)} (hf : ∀ x, Carries (f x) (f' x)) : Carries (r.orElse .debug f) (r.orElse .release f') := by
  unfold Result.orElse; carry [carries_value, carries_errorValue, carries_intermediaryValue, hf]
theorem carries_cases {α : Type} (r : Result S t e i) {f f' : S.El t → Res α} {g g' : S.El e → Res α} {h h' : S.El i → Res α} (hf : ∀ x, Carries (f x) (f' x)) (hg : ∀ x, Carries (g x) (g' x))
    (hh : ∀ x, Carries (h x) (h' x)) : Carries (r.cases .debug f g h) (r.cases .release f' g' h') := by
  unfold Result.cases; carry [carries_value, carries_errorValue, carries_intermediaryValue, hf, hg, hh]
theorem carries_valueOr (r : Result S t e i) (x : S.El t) : Carries (r.valueOr .debug x) (r.valueOr .release x) := by unfold Result.valueOr; carry [carries_value]
theorem carries_errorOr (r : Result S t e i) (x : S.El e) : Carries (r.errorOr .debug x) (r.errorOr .release x) := by unfold Result.errorOr; carry [carries_errorValue]
theorem carries_unwrapOrElse (r : Result S t e i) {f f' : Unit → Res (S.El t)} (hf : ∀ x, Carries (f x) (f' x)) : Carries (r.unwrapOrElse .debug f) (r.unwrapOrElse .release f') := by
  unfold Result.unwrapOrElse; carry [carries_value, hf]
theorem carries_execs (left : Result.Leaves S) (cs : List (Result.Stmt S t e i σ)) : ∀ (r : Result S t e i) (w : σ), Carries (r.execs .debug left w cs) (r.execs .release left w cs) := by
  induction cs with
  | nil => intro r w; exact Carries.refl _
  | cons c cs ih => intro r w; unfold Result.execs; cases c <;> unfold Result.exec <;> (try unfold Result.chainOn) <;> carry [carries_unwrap, carries_errorValue, carries_intermediaryValue, carries_mut, ih]

end

/-! ## The rest -/

section
variable {α : Type} (e : Elem α)

theorem carries_stack_push (s : Stk α) (x : α) : Carries (s.push .debug e x) (s.push .release e x) := by unfold Stk.push; carry [carries_pushBack, carries_emplaceBack]
theorem carries_stack_pop (s : Stk α) : Carries (s.pop .debug e) (s.pop .release e) := by unfold Stk.pop; carry [carries_popBack]
theorem carries_stack_top (s : Stk α) : Carries (s.top .debug) (s.top .release) := carries_peekBack _
theorem carries_vecs_get (v : Vecs α) (h i : Nat) : Carries (v.get .debug h i) (v.get .release h i) := by unfold Vecs.get; carry []
theorem carries_vecs_set (v : Vecs α) (h i : Nat) (x : α) : Carries (v.set .debug h i x) (v.set .release h i x) := by unfold Vecs.set; carry []
theorem carries_pushBackOwn (v : Vec α) (k : Nat) : Carries (v.pushBackOwn .debug e k) (v.pushBackOwn .release e k) := by unfold Vec.pushBackOwn; carry [carries_slotOf, carries_pushBackSlot]
theorem carries_pushFrontOwn (v : Vec α) (k : Nat) : Carries (v.pushFrontOwn .debug e k) (v.pushFrontOwn .release e k) := by unfold Vec.pushFrontOwn; carry [carries_slotOf, carries_pushFrontSlot]
theorem carries_insertOwn (v : Vec α) (i k : Nat) : Carries (v.insertOwn .debug e i k) (v.insertOwn .release e i k) := by unfold Vec.insertOwn; carry [carries_slotOf, carries_insertSlot]
end

section
variable {F : Type} [RoundArith F]

theorem carries_fade (fuel : Nat) (value setpoint increment : F) : Carries (Fade.fadeTo .debug fuel value setpoint increment) (Fade.fadeTo .release fuel value setpoint increment) := by
  unfold Fade.fadeTo; carry []
theorem carries_timed (fuel : Nat) (interval : Int) (value setpoint increment : F) (c : MockClock) :
    Carries (Fade.timed .debug fuel interval value setpoint increment c) (Fade.timed .release fuel interval value setpoint increment c) := by unfold Fade.timed; carry []
theorem carries_setValue (a : AnalogueOut F) (v : F) : Carries (a.baseSetValue .debug v) (a.baseSetValue .release v) := by unfold AnalogueOut.baseSetValue AnalogueOut.impSetValue; carry []
theorem carries_init (a : AnalogueOut F) : Carries (a.init .debug) (a.init .release) := by unfold AnalogueOut.init AnalogueOut.impSetValue; carry []
theorem carries_drive (vs : List F) : ∀ a : AnalogueOut F, Carries (a.drive .debug vs) (a.drive .release vs) := by
  induction vs with
  | nil => intro a; exact Carries.refl _
  | cons v vs ih => intro a; unfold AnalogueOut.drive; carry [carries_setValue, ih]
theorem carries_fadeTo (fuel : Nat) (a : AnalogueOut F) (setpoint increment : F) : Carries (AnalogueOut.fadeTo .debug fuel a setpoint increment) (AnalogueOut.fadeTo .release fuel a setpoint increment) := by
  unfold AnalogueOut.fadeTo; carry [carries_fade, carries_drive]
end

theorem carries_dimmer (activeLow : Bool) (resolution : Nat) (n : Int) : Carries (dimmer .debug activeLow resolution n) (dimmer .release activeLow resolution n) := by unfold dimmer; carry []
theorem carries_setSize (s : StaticString) (n : Nat) : Carries (s.setSize .debug n) (s.setSize .release n) := by unfold StaticString.setSize; carry []
theorem carries_call (s : StaticString) (c : StaticString.Call) : Carries (s.call .debug c) (s.call .release c) := by
  cases c <;> unfold StaticString.call <;> (try unfold StaticString.write StaticString.data) <;> (try unfold StaticString.lstrip) <;> (try unfold StaticString.rstrip) <;> carry [carries_setSize]
theorem carries_ofTimestamp (wide : Bool) (t : Int) : Carries (DateTime.ofTimestamp .debug wide t) (DateTime.ofTimestamp .release wide t) := by unfold DateTime.ofTimestamp; carry []
theorem carries_ofTimestamp32 (t : Int) : Carries (DateTime.ofTimestamp32 .debug t) (DateTime.ofTimestamp32 .release t) := by unfold DateTime.ofTimestamp32; carry []
theorem carries_datetime (lib : DateTime.Clib) (wide : Bool) (t : Int) : Carries (DateTime.create lib .debug wide t) (DateTime.create lib .release wide t) := by
  unfold DateTime.create; carry [carries_ofTimestamp]
theorem carries_datetimeAvr (lib : DateTime.Clib) (t : Nat) : Carries (DateTime.createAvr lib .debug t) (DateTime.createAvr lib .release t) := by unfold DateTime.createAvr; carry []
theorem carries_total {F : Type} (xs : List (Block F)) : ∀ sum, Carries (Schedule.total .debug sum xs) (Schedule.total .release sum xs) := by
  induction xs with
  | nil => intro sum; exact Carries.refl _
  | cons x xs ih => intro sum; unfold Schedule.total; carry [ih]
theorem carries_schedule_create {F : Type} (xs : List (Block F)) : Carries (Schedule.create .debug xs) (Schedule.create .release xs) := by unfold Schedule.create; carry [carries_total]
theorem carries_viewLines (n : Nat) (d : TextView) : Carries (ViewLineBuf.create .debug n d) (ViewLineBuf.create .release n d) := by unfold ViewLineBuf.create; carry [carries_ring]
theorem carries_invert {F : Type} [Arith F] (lo hi x : F) : Carries (invert .debug lo hi x) (invert .release lo hi x) := by unfold invert; carry []
theorem carries_backend_runF (fu : Fuse) (ops : List (Pid.Op Fl)) : ∀ s : Pid Fl, Carries (s.runF fu .debug ops) (s.runF fu .release ops) := by
  induction ops with
  | nil => intro s; exact Carries.refl _
  | cons op ops ih => intro s; unfold Pid.runF; cases op <;> unfold Pid.execF <;> (try unfold Pid.exec) <;> carry [carries_setTunings, ih]
theorem carries_pid_runF (fu : Fuse) (cfg : PidConfig Fl) (ops : List (PID.Op Fl)) : ∀ s : Pid Fl, Carries (PID.runF fu cfg .debug s ops) (PID.runF fu cfg .release s ops) := by
  induction ops with
  | nil => intro s; exact Carries.refl _
  | cons op ops ih => intro s; unfold PID.runF; cases op <;> unfold PID.execF <;> (try unfold PID.exec) <;> carry [carries_setTunings, ih]

/-! ## Filters -/

/-- The second filter gives what the first one gives, as long as that one returns. -/
def Filter.CarriesOver {F : Type} (f g : Filter F) : Prop := ∃ R : f.State → g.State → Prop, R f.state g.state ∧ ∀ s t x s' y, R s t → f.step s x = .ok (s', y) → ∃ t', g.step t x = .ok (t', y) ∧ R s' t'

/-- Two stacks of such filters; both may have null pointers. -/
def FilterStack.CarriesOver {F : Type} : FilterStack F → FilterStack F → Prop
  | [], [] => True
  | none :: st, none :: st' => FilterStack.CarriesOver st st'
  | some f :: st, some g :: st' => f.CarriesOver g ∧ FilterStack.CarriesOver st st'
  | _, _ => False

theorem Filter.CarriesOver.take {F : Type} {f g f1 : Filter F} {x : F} {y : Option F} (h : f.CarriesOver g) (ht : f.take x = .ok (f1, y)) : ∃ g1, g.take x = .ok (g1, y) ∧ f1.CarriesOver g1 := by
  obtain ⟨R, h0, h1⟩ := h
  unfold Filter.take at ht
  split at ht
  · cases ht
  · rename_i s' y' hs
    have := Except.ok.inj ht
    obtain ⟨rfl, rfl⟩ := Prod.mk.inj this
    obtain ⟨t', h2, h3⟩ := h1 _ _ _ _ _ h0 hs
    exact ⟨{ g with state := t' }, by unfold Filter.take; rw [h2], R, h3, h1⟩

theorem FilterStack.CarriesOver.take {F : Type} : ∀ {st st' st1 : FilterStack F} {x : F} {y : Option F}, FilterStack.CarriesOver st st' → FilterStack.take .debug st x = .ok (st1, y) →
    ∃ st2, FilterStack.take .release st' x = .ok (st2, y) ∧ FilterStack.CarriesOver st1 st2
  | [], [], _, x, _, _, ht => by
    have := Except.ok.inj ht
    obtain ⟨rfl, rfl⟩ := Prod.mk.inj this
    exact ⟨[], rfl, trivial⟩
  | [], none :: _, _, _, _, h, _ => h.elim
  | [], some _ :: _, _, _, _, h, _ => h.elim
  | none :: _, _, _, _, _, _, ht => by
    rw [FilterStack.take, if_pos rfl] at ht; cases ht
  | some _ :: _, [], _, _, _, h, _ => h.elim
  | some _ :: _, none :: _, _, _, _, h, _ => h.elim
  | some f :: st, some g :: st', st1, x, y, h, ht => by
    rw [FilterStack.take] at ht
    match hf : f.take x with
    | .error _ => rw [hf] at ht; cases ht
    | .ok (f1, z) =>
      obtain ⟨g1, e1, h1⟩ := h.1.take hf
      rw [hf] at ht
      match z with
      | none =>
        have := Except.ok.inj ht
        obtain ⟨rfl, rfl⟩ := Prod.mk.inj this
        exact ⟨some g1 :: st', by rw [FilterStack.take, e1]; rfl, h1, h.2⟩
      | some z =>
        match hs : FilterStack.take .debug st z with
        | .error _ =>
          change (FilterStack.take .debug st z >>= _) = _ at ht
          rw [hs] at ht; cases ht
        | .ok (st2, w) =>
          change (FilterStack.take .debug st z >>= _) = _ at ht
          rw [hs] at ht
          have := Except.ok.inj ht
          obtain ⟨rfl, rfl⟩ := Prod.mk.inj this
          obtain ⟨st3, e2, h2⟩ := FilterStack.CarriesOver.take h.2 hs
          refine ⟨some g1 :: st3, ?_, h1, h2⟩
          rw [FilterStack.take, e1]
          change (FilterStack.take .release st' z >>= _) = _
          rw [e2]; rfl

theorem FilterStack.CarriesOver.outputs {F : Type} (xs : List F) : ∀ {st st' : FilterStack F} {ys : List (Option F)}, FilterStack.CarriesOver st st' → FilterStack.outputs .debug st xs = .ok ys →
    FilterStack.outputs .release st' xs = .ok ys := by
  induction xs with
  | nil => intro st st' ys _ h; exact h
  | cons x xs ih =>
    intro st st' ys h ho
    rw [FilterStack.outputs] at ho ⊢
    match ht : FilterStack.take .debug st x with
    | .error _ => rw [ht] at ho; cases ho
    | .ok (st1, y) =>
      rw [ht] at ho
      obtain ⟨st2, e1, h1⟩ := h.take ht
      rw [e1]
      dsimp only at ho ⊢
      match hr : FilterStack.outputs .debug st1 xs with
      | .error _ => rw [hr] at ho; cases ho
      | .ok zs =>
        rw [hr] at ho
        rw [ih h1 hr]; exact ho

/-- A filter of the library to be put in a stack. -/
inductive Part (F : Type)
  | ewma (k : F)
  | band (c : BandCfg F)
  | mapped (c : MapCfg F)
  | inverter (lo hi : F)
  | passthrough
  | null

/-- The filter in a build. -/
def Part.filter {F : Type} [Arith F] (b : Build) : Part F → Option (Filter F)
  | .ewma k => some (.ewma k)
  | .band c => some (.band c)
  | .mapped c => some (.mapped c)
  | .inverter lo hi => some (.inverter b lo hi)
  | .passthrough => some .passthrough
  | .null => none

theorem Filter.CarriesOver.refl {F : Type} (f : Filter F) : f.CarriesOver f := ⟨Eq, rfl, fun _ t _ s' _ h h' => ⟨s', h ▸ h', rfl⟩⟩

theorem inverter_follows {F : Type} [Arith F] (lo hi : F) : (Filter.inverter .debug lo hi).CarriesOver (Filter.inverter .release lo hi) := by
  refine ⟨Eq, rfl, fun s t x s' y h h' => ⟨s', ?_, rfl⟩⟩
  exact (Carries.bind (carries_invert lo hi x) fun _ => Carries.refl _).same _ h'

theorem parts_follow {F : Type} [Arith F] (ps : List (Part F)) : FilterStack.CarriesOver (ps.map (·.filter .debug)) (ps.map (·.filter .release)) := by
  induction ps with
  | nil => trivial
  | cons p ps ih =>
    cases p
    case inverter lo hi => exact ⟨inverter_follows lo hi, ih⟩
    case null => exact ih
    all_goals exact ⟨Filter.CarriesOver.refl _, ih⟩


/-! ## C192

In each theorem the hypothesis is that the calls return in a debug build. -/

/-- **C192.** Any history of calls on a vector. -/
theorem C192_vector {α : Type} {e : Elem α} {v v' : Vec α} {ops : List (Vec.Op α)} {outs : List (Vec.Out α)} (h : v.run .debug e ops = .ok (outs, v')) :
    v.run .release e ops = .ok (outs, v') := (carries_run e ops v).same _ h

/-- **C192.** Insertions of an element of the vector itself. -/
theorem C192_vector_own {α : Type} {e : Elem α} {v v' : Vec α} {i k : Nat} :
    (v.pushBackOwn .debug e k = .ok v' → v.pushBackOwn .release e k = .ok v') ∧ (v.pushFrontOwn .debug e k = .ok v' → v.pushFrontOwn .release e k = .ok v') ∧
    (v.insertOwn .debug e i k = .ok v' → v.insertOwn .release e i k = .ok v') :=
  ⟨(carries_pushBackOwn e v k).same _, (carries_pushFrontOwn e v k).same _, (carries_insertOwn e v i k).same _⟩

/-- **C192.** Stacks. -/
theorem C192_stack {α : Type} {e : Elem α} {s s' : Stk α} {x : α} :
    (s.push .debug e x = .ok s' → s.push .release e x = .ok s') ∧ (s.pop .debug e = .ok s' → s.pop .release e = .ok s') ∧ (s.top .debug = .ok x → s.top .release = .ok x) :=
  ⟨(carries_stack_push e s x).same _, (carries_stack_pop e s).same _, (carries_stack_top s).same _⟩

/-- **C192.** Pools: `populate`, `depopulate`, `acquire` and the destructor. -/
theorem C192_pool {ω : Type} [DecidableEq ω] {p p' : Pool ω} {o : ω} {x : Option ω} {n : Nat} :
    (p.populate .debug o = .ok p' → p.populate .release o = .ok p') ∧ (p.depopulate .debug = .ok (x, p') → p.depopulate .release = .ok (x, p')) ∧
    (p.acquire .debug n = .ok (x, p') → p.acquire .release n = .ok (x, p')) ∧ (p.destroy .debug n = .ok p' → p.destroy .release n = .ok p') :=
  ⟨(carries_populate p o).same _, (carries_depopulate p).same _, (carries_acquire p n).same _, (carries_destroy p n).same _⟩

/-- **C192.** Alarms. -/
theorem C192_alarm {now future : Int} {absolute : Bool} {a : Alarm} (h : Alarm.create .debug now future absolute = .ok a) : Alarm.create .release now future absolute = .ok a :=
  (carries_alarm now future absolute).same _ h

/-- **C192.** Any history of calls on a pipeline. One assertion of `expire` (`pipeline.cpp:64`) calls `expired`, which may change the future; the second call of `expired` then finds what the first one left. -/
theorem C192_pipeline {ω δ : Type} [DecidableEq ω] {p p' : Pipe ω δ} {ops : List (Agenda.Op ω)} {outs : List (Agenda.Out ω)} (h : p.run .debug ops = .ok (outs, p')) :
    p.run .release ops = .ok (outs, p') := (carries_pipe_run ops p).same _ h

/-- **C192.** A program that uses an event system, with any handlers: what it does from the constructor to the destructor. -/
theorem C192_events {ω δ H : Type} [DecidableEq ω] {cfg : Config} {objs : List ω} {blank : δ} {now : Int} {beh : Behaviour ω δ H} {nest fuel n : Nat} {prog : Prog ω δ H} {s s' s'' : ES ω δ H}
    (hc : ES.create .debug cfg objs blank now = .ok s) (hr : s.run .debug beh nest fuel prog = .ok s') (hd : s'.destroy .debug n = .ok s'') :
    ES.create .release cfg objs blank now = .ok s ∧ s.run .release beh nest fuel prog = .ok s' ∧ s'.destroy .release n = .ok s'' :=
  ⟨(carries_es_create cfg objs blank now).same _ hc, (carries_es_run s beh nest fuel prog).same _ hr, (carries_es_destroy s' n).same _ hd⟩

/-- **C192.** The same with handlers that throw. -/
theorem C192_events_throw {ω δ H : Type} [DecidableEq ω] {beh : ThrowBehaviour ω δ H} {nest fuel : Nat} {prog : ThrowProg ω δ H} {s s' : ES ω δ H} {thrown : Bool}
    (h : s.runT .debug beh nest fuel prog = .ok (thrown, s')) : s.runT .release beh nest fuel prog = .ok (thrown, s') := (carries_runT s beh nest fuel prog).same _ h

/-- **C192.** The contents of an event, and the handlers' link to the event system. -/
theorem C192_event_data {d : EvData} {s s' : HandlerLink} {ops : List HandlerLink.Op} {es : List Nat} :
    (∀ x, d.value .debug = .ok x → d.value .release = .ok x) ∧ (∀ x, d.unsignedValue .debug = .ok x → d.unsignedValue .release = .ok x) ∧
    (∀ x, d.ms .debug = .ok x → d.ms .release = .ok x) ∧ (∀ x, d.s .debug = .ok x → d.s .release = .ok x) ∧
    (s.run .debug ops = .ok (s', es) → s.run .release ops = .ok (s', es)) :=
  ⟨fun _ => (carries_read _ _ d).same _, fun _ => (carries_read _ _ d).same _, fun _ => (carries_read _ _ d).same _, fun _ => (carries_read _ _ d).same _, (carries_link ops s).same _⟩

/-- **C192.** PID controllers: the constructor, any history of calls, and `response`. -/
theorem C192_pid {F : Type} [Arith F] {cfg : PidConfig F} {now : Int} {s s' : Pid F} {ops : List (PID.Op F)} {isnan : F → Bool} {y : F} (hc : PID.create cfg .debug now = .ok s)
    (hr : PID.run cfg .debug s ops = .ok s') (hy : PID.response .debug isnan s' = .ok y) :
    PID.create cfg .release now = .ok s ∧ PID.run cfg .release s ops = .ok s' ∧ PID.response .release isnan s' = .ok y :=
  ⟨(carries_pid_create cfg now).same _ hc, (carries_pid_run cfg ops s).same _ hr, (carries_response isnan s').same _ hy⟩

/-- **C192.** Any history of calls on several controllers that are copied and assigned. -/
theorem C192_pid_copies {F : Type} [Arith F] {s s' : Pids F} {ops : List (Pids.Op F)} (h : s.run .debug ops = .ok s') : s.run .release ops = .ok s' := (carries_pids_run ops s).same _ h

/-- **C192.** Automatic tuning against any process, with its effects on that process. -/
theorem C192_autotune {σ F : Type} [Arith F] {E : Plant σ F} {logs : Bool} {lower upper : F} {interval : Int} {c : Plant.Config F} {fuel : Nat} {w : σ} {r}
    (h : Plant.autotune E .debug logs lower upper interval c fuel w = .ok r) : Plant.autotune E .release logs lower upper interval c fuel w = .ok r :=
  (carries_autotune E logs lower upper interval c fuel w).same _ h

/-- **C192.** The constructors of buffers and streams. -/
theorem C192_buffers {α σ : Type} {n m : Nat} {init : α} {d : List Byte} {port : σ} :
    (∀ x, Ring.create .debug n init = .ok x → Ring.create .release n init = .ok x) ∧ (∀ x, LineBuf.create .debug n d = .ok x → LineBuf.create .release n d = .ok x) ∧
    (∀ x, Mock.create .debug n m = .ok x → Mock.create .release n m = .ok x) ∧ (∀ x, BufStream.create .debug port n m d = .ok x → BufStream.create .release port n m d = .ok x) :=
  ⟨fun _ => (carries_ring n init).same _, fun _ => (carries_lines n d).same _, fun _ => (carries_mock n m).same _, fun _ => (carries_stream port n m d).same _⟩

/-- **C192.** Transactions: a new one, the line, any reply written in pieces, and any way to end it. -/
theorem C192_transaction {σ : Type} {t t' : Transaction} {s s' : BufStream σ} {ps : List Transaction.Piece} {es : List Transaction.End} :
    (∀ x, Transaction.new .debug s = .ok x → Transaction.new .release s = .ok x) ∧ (∀ l, t.incoming .debug s = .ok l → t.incoming .release s = .ok l) ∧
    (∀ n, t.reply .debug s ps = .ok (n, t', s') → t.reply .release s ps = .ok (n, t', s')) ∧ (t.ends .debug s es = .ok (t', s') → t.ends .release s es = .ok (t', s')) ∧
    (t.destroy .debug s = .ok s' → t.destroy .release s = .ok s') :=
  ⟨fun _ => (carries_new s).same _, fun _ => (carries_incoming t s).same _, fun _ => (carries_reply ps t s).same _, (carries_ends es t s).same _, (carries_done t s).same _⟩

/-- **C192.** A device that answers lines on any port, for any history. -/
theorem C192_server {σ : Type} {P : Port σ} {f : List Byte → List Byte} {M fuel : Nat} {ops : List Server.Op} {s : BufStream σ} {g : Device.Log} {r}
    (h : Server.run P .debug f M fuel s g ops = .ok r) : Server.run P .release f M fuel s g ops = .ok r := (carries_server_run P f M fuel ops s g).same _ h

/-- **C192.** Two devices that talk to each other. -/
theorem C192_exchange {σ τ : Type} {P : Port σ} {Q : Port τ} {f : List Byte → List Byte} {fin : Byte} {M fuel : Nat} {ops : List Exchange.Op} {st st' : Exchange.State σ τ}
    (h : Exchange.run P Q .debug f fin M fuel st ops = .ok st') : Exchange.run P Q .release f fin M fuel st ops = .ok st' := (carries_exchange_run P Q f fin M fuel ops st).same _ h

/-- **C192.** Results: any sequence of statements. -/
theorem C192_result {S : Types} {t e i : S.Code} {σ : Type} {left : Result.Leaves S} {cs : List (Result.Stmt S t e i σ)} {r r' : Result S t e i} {w w' : σ} {gs : List (Result.Got S t e i)}
    (h : r.execs .debug left w cs = .ok (gs, r', w')) : r.execs .release left w cs = .ok (gs, r', w') := (carries_execs left cs r w).same _ h

/-- **C192.** Results: the combinators, with functions that may themselves differ between the builds in the same way. -/
theorem C192_combinators {S : Types} {t e i t' e' i' : S.Code} {α : Type} {r : Result S t e i} {f : Build → S.El t → Res (S.El t')} {g : Build → S.El e → Res (S.El e')} {h : Build → S.El i → Res (S.El i')}
    {k : Build → S.El t → Res (Result S t' e i)} {l : Build → S.El e → Res (Result S t e' i)} {u : Build → S.El t → Res α} {v : Build → S.El e → Res α} {w : Build → S.El i → Res α}
    (hf : ∀ x y, f .debug x = .ok y → f .release x = .ok y) (hg : ∀ x y, g .debug x = .ok y → g .release x = .ok y) (hh : ∀ x y, h .debug x = .ok y → h .release x = .ok y)
    (hk : ∀ x y, k .debug x = .ok y → k .release x = .ok y) (hl : ∀ x y, l .debug x = .ok y → l .release x = .ok y)
    (hu : ∀ x y, u .debug x = .ok y → u .release x = .ok y) (hv : ∀ x y, v .debug x = .ok y → v .release x = .ok y) (hw : ∀ x y, w .debug x = .ok y → w .release x = .ok y) :
    (∀ x, r.map .debug (f .debug) = .ok x → r.map .release (f .release) = .ok x) ∧ (∀ x, r.mapError .debug (g .debug) = .ok x → r.mapError .release (g .release) = .ok x) ∧
    (∀ x, r.mapIntermediary .debug (h .debug) = .ok x → r.mapIntermediary .release (h .release) = .ok x) ∧
    (∀ x, r.andThen .debug (k .debug) = .ok x → r.andThen .release (k .release) = .ok x) ∧ (∀ x, r.orElse .debug (l .debug) = .ok x → r.orElse .release (l .release) = .ok x) ∧
    (∀ x, r.cases .debug (u .debug) (v .debug) (w .debug) = .ok x → r.cases .release (u .release) (v .release) (w .release) = .ok x) :=
  ⟨fun _ => (carries_map r fun x => ⟨hf x⟩).same _, fun _ => (carries_mapError r fun x => ⟨hg x⟩).same _, fun _ => (carries_mapIntermediary r fun x => ⟨hh x⟩).same _,
    fun _ => (carries_andThen r fun x => ⟨hk x⟩).same _, fun _ => (carries_orElse r fun x => ⟨hl x⟩).same _,
    fun _ => (carries_cases r (fun x => ⟨hu x⟩) (fun x => ⟨hv x⟩) fun x => ⟨hw x⟩).same _⟩

/-- **C192.** Analogue outputs: `set_value` and `fade_to`, with the values driven and their times. -/
theorem C192_output {F : Type} [RoundArith F] {a a' : AnalogueOut F} {v setpoint increment : F} {fuel : Nat} {interval : Int} {c c' : MockClock} {l : List (Int × F)} :
    (a.baseSetValue .debug v = .ok a' → a.baseSetValue .release v = .ok a') ∧ (a.fadeTo .debug fuel setpoint increment = .ok a' → a.fadeTo .release fuel setpoint increment = .ok a') ∧
    (Fade.timed .debug fuel interval v setpoint increment c = .ok (l, c') → Fade.timed .release fuel interval v setpoint increment c = .ok (l, c')) :=
  ⟨(carries_setValue a v).same _, (carries_fadeTo fuel a setpoint increment).same _, (carries_timed fuel interval v setpoint increment c).same _⟩

/-- **C192.** Strings, dates and schedules. -/
theorem C192_values {s s' : StaticString} {c : StaticString.Call} {lib : DateTime.Clib} {wide : Bool} {t : Int} {n : Nat} {o : DateTime.Obj} {F : Type} {xs ys : List (Block F)} :
    (s.call .debug c = .ok s' → s.call .release c = .ok s') ∧ (DateTime.create lib .debug wide t = .ok o → DateTime.create lib .release wide t = .ok o) ∧
    (DateTime.createAvr lib .debug n = .ok o → DateTime.createAvr lib .release n = .ok o) ∧ (Schedule.create .debug xs = .ok ys → Schedule.create .release xs = .ok ys) :=
  ⟨(carries_call s c).same _, (carries_datetime lib wide t).same _, (carries_datetimeAvr lib n).same _, (carries_schedule_create xs).same _⟩

/-- **C192.** Filters: the answers of any stack to any samples. -/
theorem C192_filters {F : Type} [Arith F] {ps : List (Part F)} {xs : List F} {ys : List (Option F)} (h : FilterStack.outputs .debug (ps.map (·.filter .debug)) xs = .ok ys) :
    FilterStack.outputs .release (ps.map (·.filter .release)) xs = .ok ys := (parts_follow ps).outputs xs h

/-! Histories that return in a debug build. -/

example : ((Vec.create natElem 3).run .debug natElem [.pushBack 1, .pushBack 2, .pushFront 3, .popFront true]).map Prod.fst = .ok [.unit, .unit, .unit, .val 3] := by decide +kernel

example : ((blankPipe 5).run .debug [.push 0 0 30, .push 5 1 10, .due 14, .due 16, .expire 16]).map Prod.fst = .ok [.unit, .unit, .bool false, .bool true, .obj 1] := by decide +kernel

example : FilterStack.outputs .debug ([.ewma 2, .inverter 0 10, .passthrough].map (Part.filter (F := Rat) .debug)) [4, 8] = .ok [some 6, some 4] := by decide +kernel

/-- Not the other way round: a release build goes on where a debug build stops. -/
example : invert (F := Rat) .debug 0 10 11 = .error .assertFailed ∧ (invert (F := Rat) .release 0 10 11).isOk = true := by constructor <;> decide +kernel

end Spine
