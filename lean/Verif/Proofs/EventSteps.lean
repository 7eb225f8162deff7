import Verif.Proofs.EventBase
import Verif.Proofs.Dispatch
/-!
# What a computation on an event system is made of

`Does b f d s s'`: some sequence of the basic steps of an event system leads from `s` to `s'`; deliveries in it are at depth `f` or more and calls of handlers at depth `d` or more.
-/

namespace Spine.ES

variable {ω δ H : Type} [DecidableEq ω]

/-- Sequences of basic steps. -/
inductive Does (b : Build) (f d : Nat) : ES ω δ H → ES ω δ H → Prop
  | refl (s) : Does b f d s s
  | trans {s1 s2 s3} : Does b f d s1 s2 → Does b f d s2 s3 → Does b f d s1 s3
  | wait (s : ES ω δ H) (ms : Nat) : Does b f d s { s with clock := s.clock + ms }
  | schedule {s s' : ES ω δ H} {id delay data} : s.schedule b id delay data = .ok s' → Does b f d s s'
  | event {s s' : ES ω δ H} {id delay data x} : s.event b id delay data = .ok (x, s') → Does b f d s s'
  | submit {s s1 s' : ES ω δ H} {o} : s.give o = .ok s1 → s1.enqueue b (some o) = .ok s' → Does b f d s s'
  | drop {s s' : ES ω δ H} {o} : s.give o = .ok s' → Does b f d s s'
  | attach {s s' : ES ω δ H} {id x} : s.attach b id x = .ok s' → Does b f d s s'
  /-- a handle is in a local variable while something is done -/
  | held {s s1 s2 : ES ω δ H} {id data o} : s.fetch b id 0 data = .ok (some o, s1) → Does b f d (s1.hold o) s2 → Does b f d s (s2.unhold o)
  | polled {s : ES ω δ H} {r pipe} : s.pipe.containsExpired b s.clock = .ok (r, pipe) → Does b f d s { s with pipe }
  /-- an event is delivered -/
  | fired {s s2 : ES ω δ H} {pipe pipe' o k} : s.pipe.containsExpired b s.clock = .ok (true, pipe) → pipe.expire b s.clock = .ok (some o, pipe') → f ≤ k →
      Does b f d { s.hold o with pipe := pipe', trace := .fired (pipe'.heap o) s.clock k :: s.trace } s2 → Does b f d s (s2.unhold o)
  | called (s : ES ω δ H) (h e) {k t} : d ≤ k → Does b f d s { s with trace := .called h e k t :: s.trace }
  | slept {s s' : ES ω δ H} : s.sleep b = .ok s' → Does b f d s s'

variable {b : Build} {objs : List ω} {s s' : ES ω δ H} {f d : Nat}

theorem Does.weaken {f' d' : Nat} (h : Does b f d s s') (hf : f' ≤ f) (hd : d' ≤ d) : Does b f' d' s s' := by
  induction h with
  | refl => exact .refl _
  | trans _ _ i1 i2 => exact .trans i1 i2
  | wait s ms => exact .wait s ms
  | schedule h => exact .schedule h
  | event h => exact .event h
  | submit h h' => exact .submit h h'
  | drop h => exact .drop h
  | attach h => exact .attach h
  | held h _ ih => exact .held h ih
  | polled h => exact .polled h
  | fired h h' hk _ ih => exact .fired h h' (hf.trans hk) ih
  | called s x e hk => exact .called s x e (hd.trans hk)
  | slept h => exact .slept h

theorem Does.holds (h : Does b f d s s') : Holds objs s s' := by
  induction h with
  | refl => exact Holds.refl _
  | trans _ _ i1 i2 => exact i1.trans i2
  | wait s ms => exact ⟨rfl, fun q hq => ⟨q, hq.change hq.store rfl rfl (fun _ _ => rfl) hq.single rfl rfl⟩⟩
  | schedule h => exact schedule_holds h
  | event h =>
    refine ⟨?_, fun q hq => ⟨q, event_base hq h⟩⟩
    unfold ES.event at h
    rw [bind_ok] at h
    obtain ⟨⟨y, s0⟩, h3, h4⟩ := h
    cases h4
    exact (fetch_grows h3).locals
  | submit h1 h3 =>
    refine ⟨(enqueue_grows h3).locals.trans (give_keeps (objs := objs) h1).1.locals, fun q hq => ?_⟩
    obtain ⟨h5, h6, h7⟩ := give_base hq h1
    obtain ⟨q', h8, _⟩ := enqueue_base h5 h6 h7 h3
    exact ⟨q', h8⟩
  | drop h => exact ⟨(give_keeps (objs := objs) h).1.locals, fun q hq => ⟨q, (give_base hq h).1⟩⟩
  | attach h => exact attach_holds h
  | @held s s1 s2 id data o h _ ih =>
    obtain ⟨h7, h8⟩ := ih
    refine ⟨?_, fun q hq => ?_⟩
    · simp only [ES.unhold, h7, ES.hold, List.erase_cons_head, (fetch_grows h).locals]
    · obtain ⟨h9, h10⟩ := fetch_base hq h
      obtain ⟨h11, h12⟩ := h10 o rfl
      obtain ⟨q', h13⟩ := h8 q (h9.hold h11 h12)
      exact ⟨q', h13.unhold o⟩
  | @polled s r pipe h1 =>
    refine ⟨rfl, fun q hq => ⟨q, ?_⟩⟩
    obtain ⟨h2, h3, _⟩ := Pipe.containsExpired_any hq.pipe h1
    have : (q.map fun x => (pipe.heap x).key) = q.map fun x => (s.pipe.heap x).key :=
      List.map_congr_left (fun x _ => key_same h3 x)
    exact ⟨hq.store, hq.full, hq.small, h2, hq.single, by simp only [this]; exact hq.keys, hq.seqs⟩
  | @fired s s2 pipe pipe' o k h1 h2 hk _ ih =>
    obtain ⟨h5, h6⟩ := ih
    refine ⟨by simp only [ES.unhold, h5, ES.hold, List.erase_cons_head], fun q hq => ?_⟩
    obtain ⟨h9, h10, h11⟩ := Pipe.containsExpired_any hq.pipe h1
    obtain ⟨x, q', rfl, hx⟩ := h11 rfl
    obtain ⟨h12, h13, h14⟩ := Pipe.expire_any h9 hx h2
    obtain rfl := Option.some.inj h12
    have hsame := h10.trans h14
    have hnd := List.nodup_cons.mp hq.pipe.nodup
    have hb : Base objs { s.hold o with pipe := pipe', trace := .fired (pipe'.heap o) s.clock k :: s.trace } q' := by
      refine ⟨hq.store, hq.full, hq.small, h13, ?_, ?_, hq.seqs⟩
      · intro o'
        have h7 := hq.single o'
        simp only [uses, ES.hold, List.mem_cons, List.count_cons] at h7 ⊢
        by_cases he : o = o'
        · subst he
          simp only [true_or, if_true, beq_self_eq_true, hnd.1, if_false] at h7 ⊢; omega
        · simp only [beq_iff_eq, he, Ne.symm he, false_or, if_false] at h7 ⊢; omega
      · have hk := hq.keys
        have hm : (q'.map fun x => (pipe'.heap x).key) = q'.map fun x => (s.pipe.heap x).key :=
          List.map_congr_left (fun x _ => key_same hsame x)
        simp only [firedKeys, scheduledKeys, hm, key_same hsame o]
        rw [List.map_cons] at hk
        rw [List.cons_append]
        exact List.perm_middle.symm.trans hk
    obtain ⟨q2, h15⟩ := h6 q' hb
    exact ⟨q2, h15.unhold o⟩
  | called s x e hk => exact ⟨rfl, fun q hq => ⟨q, hq.note rfl rfl⟩⟩
  | slept h => exact sleep_holds h

theorem Does.keeps (h : Does b f d s s') : Keeps objs s s' := by
  induction h with
  | refl => exact Keeps.refl _
  | trans _ _ i1 i2 => exact i1.trans i2
  | wait s ms =>
    refine ⟨⟨by simp, ⟨[], rfl⟩, rfl, rfl, fun hm => hm.same rfl rfl (fun _ => rfl)⟩, fun _ q hq => ⟨q, ?_⟩⟩
    exact { hq with pipe := hq.pipe.later (by simp), clock := by have := hq.clock; simp only; omega }
  | schedule h => exact schedule_keeps h
  | event h => exact event_keeps h
  | submit h1 h3 =>
    obtain ⟨hg, hi⟩ := give_keeps (objs := objs) h1
    refine ⟨hg.trans (enqueue_grows h3), fun ht q hq => ?_⟩
    obtain ⟨h5, h6, h7⟩ := hi q hq
    exact enqueue_inv h5 h6 h7 h3 ht
  | drop h =>
    obtain ⟨hg, hi⟩ := give_keeps (objs := objs) h
    exact ⟨hg, fun _ q hq => ⟨q, (hi q hq).1⟩⟩
  | attach h =>
    obtain ⟨hg, _, _, _, _, _, hi⟩ := attach_keeps (objs := objs) h
    exact ⟨hg, fun _ q hq => ⟨q, hi q hq⟩⟩
  | @held s s1 s2 id data o h1 _ ih =>
    have hf := fetch_grows h1
    obtain ⟨hg, hi⟩ := ih
    have hl : s2.locals.erase o = s1.locals := by rw [hg.locals]; simp [ES.hold]
    refine ⟨hf.grows.trans ⟨hg.clock, hg.trace, hl, hg.cfg,
      fun hm => (hg.map (hm.same rfl rfl (fun _ => rfl))).same rfl rfl (fun _ => rfl)⟩, fun ht q hq => ?_⟩
    obtain ⟨h5, h6⟩ := fetch_inv hq h1
    obtain ⟨h7, h8⟩ := h6 o rfl
    obtain ⟨q', h9⟩ := hi ht q (h5.hold h7 h8)
    exact ⟨q', h9.unhold o⟩
  | @polled s r pipe h1 =>
    refine ⟨⟨le_refl _, ⟨[], rfl⟩, rfl, rfl, fun hm => hm.same rfl rfl (fun _ => rfl)⟩, fun ht q hq => ⟨q, ?_⟩⟩
    obtain ⟨heap', e1, e2, e3⟩ := Pipe.containsExpired_spec (b := b) hq.pipe hq.clock ht.1
    rw [e1] at h1
    obtain ⟨e4, rfl⟩ := Prod.mk.inj (Except.ok.inj h1)
    exact hq.same e2 e3
  | @fired s s2 pipe pipe' o k h1 h2 hk _ ih =>
    obtain ⟨ht1, ht2⟩ := ih
    have hl : s2.locals.erase o = s.locals := by rw [ht1.locals]; simp [ES.hold]
    have hgr1 : Grows s (s2.unhold o) := by
      obtain ⟨l, hl'⟩ := ht1.trace
      exact ⟨ht1.clock, ⟨l ++ [_], by rw [List.append_assoc]; exact hl'⟩, hl, ht1.cfg,
        fun hm => (ht1.map (hm.same rfl rfl (fun _ => rfl))).same rfl rfl (fun _ => rfl)⟩
    refine ⟨hgr1, fun ht q hq => ?_⟩
    have hts := hgr1.tame ht
    obtain ⟨heap', e1, e2, e3⟩ := Pipe.containsExpired_spec (b := b) hq.pipe hq.clock hts.1
    rw [e1] at h1
    obtain ⟨e4, rfl⟩ := Prod.mk.inj (Except.ok.inj h1)
    cases q with
    | nil => simp at e4
    | cons y q =>
      simp only [List.head?_cons, Option.any_some, decide_eq_true_eq] at e4
      obtain ⟨p', e5, e6, e7⟩ := Pipe.expire_spec (b := b) e3 hq.clock hts.1 e4
      rw [e5] at h2
      obtain ⟨e8, rfl⟩ := Prod.mk.inj (Except.ok.inj h2)
      obtain rfl := Option.some.inj e8
      obtain ⟨q2, h5⟩ := ht2 ht q (hq.fire (e2.trans e6) e7 e4 k)
      exact ⟨q2, h5.unhold _⟩
  | called s x e hk =>
    exact ⟨⟨le_refl _, ⟨[_], rfl⟩, rfl, rfl, fun hm => hm.same rfl rfl (fun _ => rfl)⟩, fun _ q hq => ⟨q, hq.called _ _ _ _⟩⟩
  | slept h => exact sleep_keeps h

theorem enqueue_adds' {x : Option ω} (f d : Nat) (h : s.enqueue b x = .ok s') : ∃ new, Adds f d s s' new := by
  obtain ⟨o, pipe, rfl, _, rfl⟩ := enqueue_ok h
  exact ⟨[.scheduled _ _], rfl, by simp, fun _ _ => rfl⟩

theorem Does.adds (h : Does b f d s s') : ∃ new, Adds f d s s' new := by
  induction h with
  | refl => exact ⟨[], Adds.refl f d _⟩
  | trans _ _ i1 i2 =>
    obtain ⟨n, hn⟩ := i1
    obtain ⟨n', hn'⟩ := i2
    exact ⟨_, hn.trans hn'⟩
  | wait s ms => exact ⟨[], rfl, by simp, fun _ _ => rfl⟩
  | schedule h =>
    unfold ES.schedule at h
    rw [bind_ok] at h
    obtain ⟨⟨x, s0⟩, h3, h4⟩ := h
    have hf := fetch_grows h3
    obtain ⟨n', hn'⟩ := enqueue_adds' f d h4
    exact ⟨n', by rw [hn'.1, hf.trace], hn'.2⟩
  | event h =>
    unfold ES.event at h
    rw [bind_ok] at h
    obtain ⟨⟨y, s0⟩, h3, h4⟩ := h
    cases h4
    exact ⟨[], (fetch_grows h3).trace, by simp, fun _ _ => rfl⟩
  | submit h1 h3 =>
    obtain ⟨n', hn'⟩ := enqueue_adds' f d h3
    unfold ES.give at h1
    split at h1
    · cases h1
    · cases h1; exact ⟨n', hn'.1, hn'.2⟩
  | drop h1 =>
    unfold ES.give at h1
    split at h1
    · cases h1
    · cases h1; exact ⟨[], rfl, by simp, fun _ _ => rfl⟩
  | attach h1 =>
    obtain ⟨_, _, _, _, _, ht, _⟩ := attach_keeps (objs := []) h1
    exact ⟨[_], ht, by simp, fun _ _ => rfl⟩
  | held h1 _ ih =>
    obtain ⟨n, hn⟩ := ih
    exact ⟨n, hn.1.trans (by rw [← (fetch_grows h1).trace]; rfl), hn.2⟩
  | polled h1 => exact ⟨[], rfl, by simp, fun _ _ => rfl⟩
  | @fired s s2 pipe pipe' o k h1 h2 hk _ ih =>
    obtain ⟨n, hn, h3, h4⟩ := ih
    refine ⟨n ++ [.fired (pipe'.heap o) s.clock k], by rw [List.append_assoc]; exact hn, ?_, ?_⟩
    · intro e t j hm
      rcases List.mem_append.mp hm with hm | hm
      · exact h3 e t j hm
      · simp only [List.mem_singleton, Entry.fired.injEq] at hm
        omega
    · intro d' hd'
      rw [callsAt_append, h4 d' hd']
      rfl
  | @called s x e k t hk =>
    refine ⟨[_], rfl, by simp, fun d' hd' => ?_⟩
    simp only [callsAt]
    rw [if_neg (by omega)]
  | @slept s s' h =>
    have key : ∀ ms, ∃ new, Adds f d s (s.sleepFor ms) new := fun ms => ⟨[_], rfl, by simp, fun _ _ => rfl⟩
    unfold ES.sleep at h
    split at h
    · split at h
      · rw [bind_ok] at h
        obtain ⟨_, _, h⟩ := h
        rw [res_pure] at h; rw [← Except.ok.inj h]; exact key _
      · rw [bind_ok] at h
        obtain ⟨_, _, h⟩ := h
        rw [res_pure] at h; rw [← Except.ok.inj h]; exact key _
    · rw [← Except.ok.inj h]; exact ⟨[], Adds.refl f d s⟩

end Spine.ES
