import Verif.Props.EventSystem
import Verif.Proofs.EventThrow
/-!
# Property C178: exceptions thrown by event handlers

Handlers are arbitrary programs that may throw, catch what their own calls of `trigger` and `loop` throw, or let it pass. `true` beside a state says that the call ended with an exception.
-/

namespace Spine

variable {ω δ H : Type} [DecidableEq ω] {b : Build}

namespace ES

/-- Every state a program can bring an event system into, when handlers may throw and the program catches it. -/
inductive ReachThrow (b : Build) (beh : ThrowBehaviour ω δ H) (cfg : Config) (objs : List ω) : ES ω δ H → Prop
  | create {blank : δ} {now : Int} {s : ES ω δ H} : 0 ≤ now → ES.create b cfg objs blank now = .ok s → ReachThrow b beh cfg objs s
  | run {s s' : ES ω δ H} {p : ThrowProg ω δ H} {nest fuel : Nat} {thrown : Bool} : ReachThrow b beh cfg objs s →
      s.runT b beh nest fuel p = .ok (thrown, s') → ReachThrow b beh cfg objs s'

variable {beh : ThrowBehaviour ω δ H} {objs : List ω} {s s' : ES ω δ H} {cfg : Config}

theorem ReachThrow.base (hnd : objs.Nodup) (hl : objs.length = cfg.eventsCap) (hs : cfg.eventsCap < 2 ^ 16)
    (h : ReachThrow b beh cfg objs s) : ∃ q, Base objs s q ∧ s.locals = [] ∧ s.cfg = cfg := by
  induction h with
  | create hn hc => exact Reach.base (beh := fun _ _ _ => .done) hnd hl hs (.create hn hc)
  | run _ he ih =>
    obtain ⟨q, h1, h2, h3⟩ := ih
    obtain ⟨h4, h5⟩ := (runT_does he).holds (objs := objs)
    obtain ⟨q', h6⟩ := h5 q h1
    exact ⟨q', h6, h4.trans h2, ((runT_does he).keeps (objs := objs)).1.cfg.trans h3⟩

theorem ReachThrow.inv (hnd : objs.Nodup) (hl : objs.length = cfg.eventsCap) (hs : cfg.eventsCap < 2 ^ 16)
    (h : ReachThrow b beh cfg objs s) (ht : Tame s) : ∃ q, Inv objs s q := by
  induction h with
  | create hn hc =>
    obtain ⟨q, h1, _⟩ := Reach.inv (beh := fun _ _ _ => .done) hnd hl hs (.create hn hc) ht
    exact ⟨q, h1⟩
  | run _ he ih =>
    obtain ⟨h1, h2⟩ := (runT_does he).keeps (objs := objs)
    obtain ⟨q, hq⟩ := ih (h1.tame ht)
    exact h2 ht q hq

theorem ReachThrow.map (hh : cfg.handlerCap < sizeMod) (h : ReachThrow b beh cfg objs s) : MapRep s := by
  induction h with
  | create hn hc => exact create_map hh hc
  | run _ he ih => exact ((runT_does he).keeps (objs := objs)).1.map ih

theorem ReachThrow.cfg_eq (h : ReachThrow b beh cfg objs s) : s.cfg = cfg := by
  induction h with
  | create hn hc => exact Reach.cfg_eq (objs := objs) (beh := fun _ _ _ => .done) (.create hn hc)
  | run _ he ih => rw [← ih]; exact ((runT_does he).keeps (objs := objs)).1.cfg

end ES

open ES

variable {beh : ThrowBehaviour ω δ H} {objs : List ω} {s s' : ES ω δ H} {cfg : Config}

/-- C178. Whatever handlers throw, no event is lost and none is delivered twice: the events delivered and the events pending are those scheduled, each once. (The event whose handler
throws counts as delivered.) -/
theorem C178_exactly_once (hnd : objs.Nodup) (hl : objs.length = cfg.eventsCap) (hs : cfg.eventsCap < 2 ^ 16) (h : ReachThrow b beh cfg objs s) :
    ∃ pending : List ω, s.pipe.vec.Holds (pending.map some) ∧
      (firedKeys s.trace ++ pending.map fun o => (s.pipe.heap o).key).Perm (scheduledKeys s.trace) ∧
      ((scheduledKeys s.trace).map (·.seq)).Nodup := by
  obtain ⟨q, h1, _, _⟩ := h.base hnd hl hs
  exact ⟨q, h1.pipe.vec.rep.holds, h1.keys, by rw [h1.seqs]; exact List.nodup_reverse.mpr List.nodup_range⟩

/-- C178. No event object is leaked by an exception: after any history, the number of events that can be obtained is the capacity minus the events pending and the events held by the
program. -/
theorem C178_capacity (hnd : objs.Nodup) (hl : objs.length = cfg.eventsCap) (hs : cfg.eventsCap < 2 ^ 16) (h : ReachThrow b beh cfg objs s) :
    ∃ pending : List ω, ∃ free : Nat, s.pipe.vec.Holds (pending.map some) ∧
      pending.length + (objs.map s.store.outside).sum + free = cfg.eventsCap ∧
      ∀ reqs : List (Nat × Int × δ), reqs.length = free → ∃ (l : List ω) (s' : ES ω δ H), s.takes b reqs = .ok (l.map some, s') ∧ l.Nodup ∧ l.length = free ∧
        ∀ o ∈ l, o ∈ objs ∧ o ∉ pending ∧ s.store.outside o = 0 := by
  obtain ⟨q, h1, h2, h3⟩ := h.base hnd hl hs
  have hc := h1.count
  rw [h2, h3] at hc
  refine ⟨q, (objs.filter fun o => uses s q o = 0).length, h1.pipe.vec.rep.holds, by simp only [List.length_nil] at hc; omega, fun reqs hr => ?_⟩
  obtain ⟨l, s', e1, _, e3, e4, e5, _⟩ := ES.takes_spec (b := b) reqs s h1 (le_of_eq hr)
  refine ⟨l, s', e1, e3, e4.trans hr, fun o ho => ?_⟩
  have := e5 o ho
  refine ⟨this.1, fun hm => ?_, ?_⟩
  · simp only [uses, if_pos hm] at this; omega
  · simp only [uses] at this; omega

/-- C178. Handlers are called in the order in which they were attached up to the first one that throws: when `trigger` returns it has called all the handlers attached (as many as there
is room for), each once; when it throws it has called the first `k` of them, and the exception is the one thrown by the last of these. -/
theorem C178_handlers (hh : cfg.handlerCap < sizeMod) (h : ReachThrow b beh cfg objs s) {rounds nest depth : Nat} {e : Event δ} {thrown : Bool}
    (ht : triggerT b beh rounds (nest + 1) depth s e = .ok (thrown, s')) :
    ∃ new k, s'.trace = new ++ s.trace ∧
      (callsAt depth new).reverse.map (fun c => (some c.1, c.2)) = (((attached s.trace e.id).take cfg.handlerCap).take k).map (fun x => (x, e)) ∧
      k ≤ ((attached s.trace e.id).take cfg.handlerCap).length ∧
      (thrown = false → k = ((attached s.trace e.id).take cfg.handlerCap).length) ∧
      (thrown = true → ∃ (s1 : ES ω δ H) (y : H) (rest : List (H × Event δ)), callsAt depth new = (y, e) :: rest ∧
        execT b (triggerT b beh rounds nest (depth + 1)) (fun s => s.loopT b (triggerT b beh rounds nest (depth + 1)) (depth + 1) rounds)
          { s1 with trace := .called y e depth s1.clock :: s1.trace } (beh y s1.trace e) = .ok (true, s')) := by
  have hm := h.map hh
  rw [← h.cfg_eq]
  unfold triggerT at ht
  simp only [bind_ok] at ht
  obtain ⟨_, _, v, hv, _, _, ht⟩ := ht
  have hv1 : s.map[e.id]? = some v := by
    unfold rd at hv
    cases hx : s.map[e.id]? with
    | none => rw [hx] at hv; cases hv
    | some w => rw [hx] at hv; rw [Except.ok.inj hv]
  obtain ⟨post, log, rfl, hl⟩ := hm.slot e.id v hv1
  have hsm := hm.small
  rw [Vec.size_mk' (by simp only [Vec.Fits, List.length_nil]; omega)] at ht
  obtain ⟨new, k, h1, h2, h3, h4, h5⟩ := visitT_calls (triggerT_does nest (depth + 1)) (fun _ _ _ h => loopT_does (triggerT_does nest (depth + 1)) h)
    _ _ s thrown s' hm (List.prefix_refl _) (by simp [Vec.mk']) ht
  exact ⟨new, k, h1, by simpa [Vec.mk'] using h2, h3, h4, h5⟩

/-- C178. The exception reaches the caller: `trigger` does not return if one of the handlers attached throws on the event, and a `loop()` that returns has not delivered an event with such
a handler. -/
theorem C178_reaches (hh : cfg.handlerCap < sizeMod) (h : ReachThrow b beh cfg objs s) {rounds nest : Nat} {y : H} {id : Nat}
    (hy : some y ∈ (attached s.trace id).take cfg.handlerCap) (hthrows : ∀ tr e, e.id = id → beh y tr e = .throw) :
    (∀ (depth : Nat) (e : Event δ) (thrown : Bool), e.id = id → triggerT b beh rounds nest depth s e = .ok (thrown, s') → thrown = true) ∧
    (∀ (fuel : Nat) (thrown : Bool), s.drainT b (triggerT b beh rounds nest 0) 0 fuel = .ok (thrown, s') →
      thrown = true ∨ ∃ new, s'.trace = new ++ s.trace ∧ ∀ e t, Entry.fired e t 0 ∈ new → e.id ≠ id) := by
  rw [← h.cfg_eq] at hy
  refine ⟨fun depth e thrown he ht => ?_, fun fuel thrown hd => ?_⟩
  · cases thrown with
    | true => rfl
    | false =>
      obtain ⟨tr, htr⟩ := triggerT_throws (h.map hh) ht (y := y) (by rw [he]; exact hy)
      exact absurd (hthrows tr e he) htr
  · cases thrown with
    | true => exact .inl rfl
    | false => exact .inr (drainT_throws hthrows fuel s s' (h.map hh) hy hd)

/-- C178. Events that an exception kept from being delivered are delivered by the next `loop()`: when its `while` loop ends without an exception, no pending event is due, with uptimes up
to 2^24 ms; later, none which is overdue by more than one part in 2^24 of the uptime. -/
theorem C178_delivers (hnd : objs.Nodup) (hl : objs.length = cfg.eventsCap) (hs : cfg.eventsCap < 2 ^ 16) (h : ReachThrow b beh cfg objs s) {rounds nest fuel : Nat}
    (hr : s.drainT b (triggerT b beh rounds nest 0) 0 fuel = .ok (false, s')) (ht : Tame s') {pending : List ω}
    (hp : s'.pipe.vec.Holds (pending.map some)) {o : ω} (ho : o ∈ pending) :
    (s'.clock ≤ 2 ^ 24 → s'.clock < (s'.pipe.heap o).timer.future) ∧
    s'.clock - s'.clock / 2 ^ 24 < (s'.pipe.heap o).timer.future := by
  have hd := triggerT_does (b := b) (beh := beh) (rounds := rounds) nest 0
  have hg := ((drainT_does hd fuel _ _ _ hr).keeps (objs := objs)).1
  obtain ⟨q, h1⟩ := h.inv hnd hl hs (hg.tame ht)
  obtain ⟨q', h2, h3⟩ := drainT_keeps hd fuel s s' hr ht q h1
  rw [h2.pending hp] at ho
  obtain ⟨x, hx, rfl⟩ := List.mem_map.mp ho
  rw [h2.pipe.deadline x hx]
  have h4 := h3 x hx
  have hb := near_bound s'.clock
  rw [abs_of_nonneg h2.clock, abs_le] at hb
  refine ⟨fun hc => ?_, by omega⟩
  rwa [near_eq (by rw [abs_of_nonneg h2.clock]; exact hc)] at h4

/-- C178. When handlers do not throw, everything is as described by C36-C40: programs and handlers that do not throw do the same here as in the event system without exceptions. -/
theorem C178_no_exception (beh : Behaviour ω δ H) (nest fuel : Nat) (p : Prog ω δ H) (s : ES ω δ H) :
    s.runT b (fun h tr e => (beh h tr e).lift) nest fuel p.lift = (s.run b beh nest fuel p).map fun s => (false, s) :=
  execT_lift (triggerT_lift nest 0) (fun s => loopT_lift (triggerT_lift nest 0) 0 fuel s) p s

/-- Handlers 7 and 8 of event 0; handler 7 throws when the data is 5. -/
def throwingBehaviour : ThrowBehaviour Nat Nat Nat := fun h _ e => if h = 7 ∧ e.data = 5 then .throw else .done

/-- Non-vacuity: three events, with data 5, 6 and 5, are due; the first `loop()` throws having called handler 7 only, the second delivers the second event to both handlers and throws at
the third, and after that all three objects can be obtained again. -/
example : (do let s ← exampleSystem b 3 0
              let s ← s.attach b 0 (some 8)
              let (_, s) ← s.runT b throwingBehaviour 1 9 (.schedule 0 10 5 (.schedule 0 10 6 (.schedule 0 10 5 (.wait 10 .done))))
              let (t1, s) ← s.runT b throwingBehaviour 1 9 (.loop fun t => if t then .throw else .done)
              let c1 := (callsAt 0 s.trace).map (fun c => (c.1, c.2.data))
              let (t2, s) ← s.runT b throwingBehaviour 1 9 (.loop fun t => if t then .throw else .done)
              let c2 := (callsAt 0 s.trace).map (fun c => (c.1, c.2.data))
              let (l, s) ← s.takes b [(0, 1, 1), (1, 2, 2), (1, 3, 3)]
              return ((t1, c1), (t2, c2), l.length, s.pipe.vec.size) : Res ((Bool × List (Nat × Nat)) × (Bool × List (Nat × Nat)) × Nat × Nat)) =
    .ok ((true, [(7, 5)]), (true, [(7, 5), (8, 6), (7, 6), (7, 5)]), 3, 0) := by
  cases b <;> decide +kernel

/-- Non-vacuity: handler 9 of event 1 catches the exception of handler 7, which it triggers, and handler 8 is called for event 1 after it. -/
example : (do let s ← exampleSystem b 3 0
              let s ← s.attach b 1 (some 9)
              let s ← s.attach b 1 (some 8)
              let beh : ThrowBehaviour Nat Nat Nat := fun h tr e => if h = 9 then .trigger 0 5 (fun _ => .done) else throwingBehaviour h tr e
              let (t, s) ← s.runT b beh 2 9 (.trigger 1 4 fun t => if t then .throw else .done)
              return (t, (callsAt 0 s.trace).map (fun c => (c.1, c.2.data)), (callsAt 1 s.trace).map (fun c => (c.1, c.2.data))) :
              Res (Bool × List (Nat × Nat) × List (Nat × Nat))) =
    .ok (false, [(8, 4), (9, 4)], [(7, 5)]) := by
  cases b <;> decide +kernel

end Spine
