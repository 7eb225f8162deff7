import Verif.Props.Units
import Verif.Proofs.EventProps
/-!
# Properties C35-C40 and C65: `Pipeline` and `EventSystem`

Times are in ms since start-up; 2^24 ms are 4 hours and 39 minutes, 2^23 ms half of that, 2^40 ms are 34 years.
`s.trace` is the record of what happened, newest entry first.  The pending events are the objects the pipeline
points to: `s.pipe.vec.Holds (pending.map some)`.
-/

namespace Spine

variable {ω δ H : Type} [DecidableEq ω] {b : Build}

/-! ## C35 -/

/-- C35 (partial). Over any history of calls up to 2^24 ms after start-up with delays of at most 2^23 ms, the pipeline
behaves like the agenda: every call succeeds with the same answer, and afterwards the pipeline holds the entries of the
agenda, with their deadlines, ordered by deadline and first come, first served among equals.
Missing: longer delays (`C35_long_delay_counterexample`), clocks that tick during `push` (`C35_tick_counterexample`, `C35_ticks_partial`), and
answers about what is due later on, see `C35_later_partial`. -/
theorem C35_pipeline_partial {n : Nat} (hn : n < sizeMod) (heap : ω → Event δ) (ops : List (Agenda.Op ω))
    (hmono : (ops.map (·.time)).Pairwise (· ≤ ·)) (hrange : ∀ op ∈ ops, 0 ≤ op.time ∧ op.time ≤ 2 ^ 24)
    {outs : List (Agenda.Out ω)} {st : Agenda.State ω} (h : Agenda.run n (2 ^ 23) id ⟨[], 0⟩ ops = some (outs, st)) :
    ∃ p, Pipe.run b { vec := Vec.create (sharedPtr ω) n, heap } ops = .ok (outs, p) ∧
      p.vec.Holds (st.items.map fun x => some x.obj) ∧
      (∀ x ∈ st.items, (p.heap x.obj).timer.future = x.deadline) ∧ st.items.Pairwise Item.Before := by
  have hsee : ∀ op ∈ ops, id op.time = near op.time := by
    intro op ho
    rw [near_eq (by rw [abs_of_nonneg (hrange op ho).1]; exact (hrange op ho).2)]; rfl
  rw [Agenda.run_see ops _ hsee] at h
  obtain ⟨p, now', e1, e2, e3⟩ := Pipe.run_spec (b := b) ops (now := 0) (Pipe.Rep.start n hn heap 0) (by simp) (by simp)
    (fun op ho => (hrange op ho).1) hmono (fun op ho => ⟨(hrange op ho).1, (hrange op ho).2.trans (by norm_num)⟩) h
  exact ⟨p, e1, e2.vec.rep.holds, e2.deadline, e3⟩

/-- C35 (partial). The order is right for 34 years; only what counts as due is judged by a clock reading rounded to a
`float` (`near`). -/
theorem C35_later_partial {n : Nat} (hn : n < sizeMod) (heap : ω → Event δ) (ops : List (Agenda.Op ω))
    (hmono : (ops.map (·.time)).Pairwise (· ≤ ·)) (hrange : ∀ op ∈ ops, 0 ≤ op.time ∧ op.time ≤ 2 ^ 40)
    {outs : List (Agenda.Out ω)} {st : Agenda.State ω} (h : Agenda.run n (2 ^ 23) near ⟨[], 0⟩ ops = some (outs, st)) :
    ∃ p, Pipe.run b { vec := Vec.create (sharedPtr ω) n, heap } ops = .ok (outs, p) ∧
      p.vec.Holds (st.items.map fun x => some x.obj) ∧
      (∀ x ∈ st.items, (p.heap x.obj).timer.future = x.deadline) ∧ st.items.Pairwise Item.Before := by
  obtain ⟨p, now', e1, e2, e3⟩ := Pipe.run_spec (b := b) ops (now := 0) (Pipe.Rep.start n hn heap 0) (by simp) (by simp)
    (fun op ho => (hrange op ho).1) hmono hrange h
  exact ⟨p, e1, e2.vec.rep.holds, e2.deadline, e3⟩

/-- Events for examples. -/
def blankEvent : Event Nat := { timeFromNow := 0, timer := ⟨0, false⟩, id := 0, data := 0, seq := 0 }

/-- An empty pipeline for examples. -/
def blankPipe (n : Nat) : Pipe Nat Nat := { vec := Vec.create (sharedPtr Nat) n, heap := fun _ => blankEvent }

/-- C35 is false for delays above 2^24 ms: object 0 is due at 16777218 and object 1 at 16777217, but 1 is queued behind 0. -/
theorem C35_long_delay_counterexample :
    ((blankPipe 2).run b [.push 0 0 16777218, .push 1 1 16777216]).map (fun r => (r.2.vec.forward 3, (r.2.heap 0).timer.future,
      (r.2.heap 1).timer.future)) = .ok (.ok [some 0, some 1], 16777218, 16777217) := by
  cases b <;> decide +kernel

/-- C35 is false when the clock ticks during `push`: object 0 is due at 10, then object 1 is pushed to be due at 9; the clock
goes from 0 to 1 between the two readings that are compared, and 1 is queued behind 0. -/
theorem C35_tick_counterexample :
    ((do let (_, p) ← (blankPipe 2).run b [.push 0 0 10]
         (p.store 1 { blankEvent with timeFromNow := 9 }).push b (some 1) 0 (fun _ => (0, 1))) : Res (Pipe Nat Nat)).map
      (fun p => (p.vec.forward 3, (p.heap 0).timer.future, (p.heap 1).timer.future)) = .ok (.ok [some 0, some 1], 10, 9) := by
  cases b <;> decide +kernel

/-- Non-vacuity: five events, two with equal deadlines, pushed out of order; the second entry is late. -/
example : ∃ p, (blankPipe 5).run b [.push 0 0 30, .push 5 1 10, .push 5 2 25, .next 6, .push 7 3 3, .due 9, .due 10, .expire 12,
      .expire 20, .push 20 4 10, .due 20] =
      .ok ([.unit, .unit, .unit, .time 9, .unit, .bool false, .bool true, .obj 3, .obj 1, .unit, .bool false], p) ∧
    p.vec.Holds [some 0, some 2, some 4] := by
  obtain ⟨p, h1, h2, _⟩ := C35_pipeline_partial (b := b) (n := 5) (lt_sizeMod (by norm_num)) (fun _ => blankEvent)
    [.push 0 0 30, .push 5 1 10, .push 5 2 25, .next 6, .push 7 3 3, .due 9, .due 10, .expire 12, .expire 20, .push 20 4 10, .due 20]
    (by decide) (by decide) (st := ⟨[⟨0, 30, 0⟩, ⟨2, 30, 2⟩, ⟨4, 30, 4⟩], 5⟩) rfl
  exact ⟨p, h1, h2⟩

/-! ## C36 -/

open ES

variable {beh : Behaviour ω δ H} {objs : List ω} {cfg : Config} {s s' : ES ω δ H}

/-- C36. Over any history, with any handlers, delays and clock: every event ever scheduled was either delivered, once,
or is still pending, once, with its id, data and deadline; and no other events were delivered or are pending.
(The events are numbered by `seq`.) -/
theorem C36_exactly_once (hnd : objs.Nodup) (hl : objs.length = cfg.eventsCap) (hs : cfg.eventsCap < 2 ^ 16) (h : Reach b beh cfg objs s) :
    ∃ pending : List ω, s.pipe.vec.Holds (pending.map some) ∧
      (firedKeys s.trace ++ pending.map fun o => (s.pipe.heap o).key).Perm (scheduledKeys s.trace) ∧
      ((scheduledKeys s.trace).map (·.seq)).Nodup := by
  obtain ⟨q, h1, _, _⟩ := h.base hnd hl hs
  exact ⟨q, h1.pipe.vec.rep.holds, h1.keys, by rw [h1.seqs]; exact List.nodup_reverse.mpr List.nodup_range⟩

/-- C36 (partial). As long as fewer events are pending or held than the capacity, `schedule` succeeds, and the new event
has the id and data asked for; its deadline is the given delay from now. Missing: delays above 2^23 ms (see C33). -/
theorem C36_schedule_partial (hnd : objs.Nodup) (hl : objs.length = cfg.eventsCap) (hs : cfg.eventsCap < 2 ^ 16)
    (h : Reach b beh cfg objs s) (ht : Tame s) {delay : Int} (hd : 0 < delay) (hd' : delay ≤ 2 ^ 23)
    (hroom : s.pipe.vec.size + (objs.map s.store.outside).sum < cfg.eventsCap) (id : Nat) (data : δ) :
    ∃ s' e, s.schedule b id delay data = .ok s' ∧ s'.trace = .scheduled e s.clock :: s.trace ∧
      e.key = ⟨(scheduledKeys s.trace).length, id, data, s.clock + delay⟩ := by
  obtain ⟨q, h1, h2, h3⟩ := h.inv hnd hl hs ht
  have hseq : (scheduledKeys s.trace).length = s.count := by
    have := congrArg List.length h1.seqs; simpa using this
  obtain ⟨o, s1, v', e1, e2, e3, _⟩ := ES.schedule_spec (b := b) (id := id) (data := data) h1 ht.1 hd hd'
    (h1.free (by rw [h2, h3, ← h1.pipe.size]; simpa using hroom))
  have hF := fetch_grows e1
  refine ⟨_, { s1.pipe.heap o with seq := s1.count, timer := ⟨s1.clock + (s1.pipe.heap o).timeFromNow, false⟩ }, e2, ?_, ?_⟩
  · simp only [queued, hF.clock, hF.trace]
  · simp only [Event.key, hF.heap, hF.clock, hF.count, hseq, Pipe.store, if_true]

/-- C36 (partial). An event is never delivered early: with uptimes up to 2^24 ms not before its deadline, later not
earlier than by one part in 2^24 of the uptime (`C36_early_counterexample`). -/
theorem C36_on_time_partial (hnd : objs.Nodup) (hl : objs.length = cfg.eventsCap) (hs : cfg.eventsCap < 2 ^ 16)
    (h : Reach b beh cfg objs s) (ht : Tame s) {e : Event δ} {t : Int} {d : Nat} (hf : Entry.fired e t d ∈ s.trace) :
    (|t| ≤ 2 ^ 24 → e.timer.future ≤ t) ∧ e.timer.future ≤ t + |t| / 2 ^ 24 := by
  obtain ⟨q, h1, _⟩ := h.inv hnd hl hs ht
  have h2 := h1.ontime e t d hf
  refine ⟨fun h3 => by rwa [near_eq h3] at h2, ?_⟩
  have := near_bound t
  rw [abs_le] at this
  omega

/-- C36 (partial). Events are delivered in order: when `d` is delivered after `c`, and was already scheduled when `c` was
delivered, then `c` has the earlier deadline, or the same deadline and was scheduled earlier. -/
theorem C36_order_partial (hnd : objs.Nodup) (hl : objs.length = cfg.eventsCap) (hs : cfg.eventsCap < 2 ^ 16)
    (h : Reach b beh cfg objs s) (ht : Tame s) {c d e : Event δ} {tc td te : Int} {nc nd : Nat}
    (hsub : [Entry.fired d td nd, .fired c tc nc, .scheduled e te].Sublist s.trace) (hde : e.seq = d.seq) : c.Before d := by
  obtain ⟨q, h1, _⟩ := h.inv hnd hl hs ht
  exact h1.fifo d td nd c tc nc e te hsub hde

/-- C36 (partial). When the `while` loop of `loop()` ends, no pending event is due, with uptimes up to 2^24 ms; later, none
which is overdue by more than one part in 2^24 of the uptime. -/
theorem C36_delivers_partial (hnd : objs.Nodup) (hl : objs.length = cfg.eventsCap) (hs : cfg.eventsCap < 2 ^ 16)
    (h : Reach b beh cfg objs s) {rounds nest fuel : Nat} (hr : s.drain b beh rounds nest fuel = .ok s') (ht : Tame s') {pending : List ω}
    (hp : s'.pipe.vec.Holds (pending.map some)) {o : ω} (ho : o ∈ pending) :
    (s'.clock ≤ 2 ^ 24 → s'.clock < (s'.pipe.heap o).timer.future) ∧
    s'.clock - s'.clock / 2 ^ 24 < (s'.pipe.heap o).timer.future := by
  obtain ⟨hg, hk⟩ := drain_keeps (objs := objs) (trigger_good _ _) fuel s s' hr
  obtain ⟨q, h1, _⟩ := h.inv hnd hl hs (hg.tame ht)
  obtain ⟨q', h2, h3⟩ := hk ht q h1
  rw [h2.pending hp] at ho
  obtain ⟨x, hx, rfl⟩ := List.mem_map.mp ho
  rw [h2.pipe.deadline x hx]
  have h4 := h3 x hx
  have hb := near_bound s'.clock
  rw [abs_of_nonneg h2.clock, abs_le] at hb
  refine ⟨fun hc => ?_, by omega⟩
  rwa [near_eq (by rw [abs_of_nonneg h2.clock]; exact hc)] at h4

/-- A configuration for examples. -/
def exampleConfig (cap : Nat) : Config :=
  { eventsCount := 2, eventsCap := cap, handlerCap := 2, delayBetweenTicks := false, minDelay := 0, maxDelay := 0 }

/-- A system for examples: one handler on event 0. -/
def exampleSystem (b : Build) (cap : Nat) (now : Int) : Res (ES Nat Nat Nat) := do
  let s ← ES.create b (exampleConfig cap) (List.range cap) 0 now
  s.attach b 0 (some 7)

/-- C36 is false after 2^24 ms: an event for 16777220 is delivered at 16777219. -/
theorem C36_early_counterexample :
    (do let s ← exampleSystem b 1 16777216
        let s ← s.run b (fun _ _ _ => .done) 1 1 (.schedule 0 4 5 (.wait 3 .done))
        s.loop b (fun _ _ _ => .done) 1 2 : Res (ES Nat Nat Nat)).map (fun s => (s.clock, (firedKeys s.trace).map (·.deadline)))
      = .ok (16777219, [16777220]) := by
  cases b <;> decide +kernel

/-! ## C37 -/

/-- C37. After any history, the number of events that can be obtained is the capacity minus the events pending and the events
held by the program: so many calls of `event()` succeed, whatever the arguments; they return different objects, none of
which is pending or held; and no call after that returns an object. -/
theorem C37_capacity (hnd : objs.Nodup) (hl : objs.length = cfg.eventsCap) (hs : cfg.eventsCap < 2 ^ 16) (h : Reach b beh cfg objs s) :
    ∃ pending : List ω, ∃ free : Nat, s.pipe.vec.Holds (pending.map some) ∧
      pending.length + (objs.map s.store.outside).sum + free = cfg.eventsCap ∧
      ∀ reqs : List (Nat × Int × δ), reqs.length = free → ∃ (l : List ω) (s' : ES ω δ H), s.takes b reqs = .ok (l.map some, s') ∧ l.Nodup ∧ l.length = free ∧
        (∀ o ∈ l, o ∈ objs ∧ o ∉ pending ∧ s.store.outside o = 0) ∧
        ∀ id delay data o s'', s'.event b id delay data ≠ .ok (some o, s'') := by
  obtain ⟨q, h1, h2, h3⟩ := h.base hnd hl hs
  have hc := h1.count
  rw [h2, h3] at hc
  refine ⟨q, (objs.filter fun o => uses s q o = 0).length, h1.pipe.vec.rep.holds, by simp only [List.length_nil] at hc; omega, fun reqs hr => ?_⟩
  obtain ⟨l, s', e1, e2, e3, e4, e5, e6, e7, e8⟩ := ES.takes_spec (b := b) reqs s h1 (le_of_eq hr)
  refine ⟨l, s', e1, e3, e4.trans hr, fun o ho => ?_, fun id delay data o s'' he => ?_⟩
  · have := e5 o ho
    refine ⟨this.1, fun hm => ?_, ?_⟩
    · simp only [uses, if_pos hm] at this; omega
    · simp only [uses] at this; omega
  · have hperm : ∀ x ∈ objs, uses s q x = 0 → x ∈ l := by
      intro x hx hu
      have hsub : l ⊆ objs.filter fun o => uses s q o = 0 := fun y hy => by simp [e5 y hy]
      have hp := (List.subperm_of_subset e3 hsub).perm_of_length_le (by rw [e4, hr])
      exact hp.mem_iff.mpr (by simp [hx, hu])
    have hall : ∀ x ∈ objs, uses s' q x ≠ 0 := by
      intro x hx
      rw [e6]
      by_cases hu : uses s q x = 0
      · have := List.count_pos_iff.mpr (hperm x hx hu); omega
      · omega
    have hex := ES.event_exhausted (b := b) e2 hall id delay data
    cases b with
    | debug => simp only at hex; rw [hex] at he; cases he
    | release => obtain ⟨_, hex⟩ := hex; rw [hex] at he; cases he

/-- C37. An object that is pending or held by the program is not handed out. -/
theorem C37_exclusive (hnd : objs.Nodup) (hl : objs.length = cfg.eventsCap) (hs : cfg.eventsCap < 2 ^ 16) (h : Reach b beh cfg objs s)
    {pending : List ω} (hp : s.pipe.vec.Holds (pending.map some)) {id : Nat} {delay : Int} {data : δ} {o : ω}
    (he : s.event b id delay data = .ok (some o, s')) : o ∉ pending ∧ s.store.outside o = 0 := by
  obtain ⟨q, h1, h2, h3⟩ := h.base hnd hl hs
  rw [h1.pending hp]
  unfold event at he
  rw [bind_ok] at he
  obtain ⟨⟨y, s1⟩, e1, e2⟩ := he
  cases e2
  have hF := fetch_grows e1
  have := ((fetch_base h1 e1).2 o rfl).2
  simp only [uses, hF.store, hF.locals] at this
  refine ⟨fun hm => ?_, by omega⟩
  rw [if_pos hm] at this; omega

/-- Non-vacuity: a system of capacity 3 whose handler schedules the next event each time; after ten rounds one event is pending and
two can be obtained. -/
example : (do let s ← exampleSystem b 3 0
              let s ← s.run b (fun _ _ _ => .done) 1 1 (.schedule 0 10 5 .done)
              let s ← (List.range 10).foldlM (fun (s : ES Nat Nat Nat) _ => do
                let s ← s.run b (fun _ _ _ => .done) 1 1 (.wait 10 .done)
                s.loop b (fun _ _ e => .schedule 0 10 (e.data + 1) .done) 1 3) s
              let (l, s) ← s.takes b [(0, 1, 1), (1, 2, 2)]
              return (s.pipe.vec.size, l.length, (firedKeys s.trace).map (·.data)) : Res (Nat × Nat × List Nat)) =
    .ok (1, 2, [14, 13, 12, 11, 10, 9, 8, 7, 6, 5]) := by
  cases b <;> decide +kernel

/-! ## C38 -/

/-- C38 is false: in every reachable state in which as many events are pending and held as the capacity, scheduling another one
is undefined behaviour in release builds (the pipeline follows a null pointer) and a failed assertion in debug builds. -/
theorem C38_schedule_counterexample (hnd : objs.Nodup) (hl : objs.length = cfg.eventsCap) (hs : cfg.eventsCap < 2 ^ 16)
    (h : Reach b beh cfg objs s) (hfull : s.pipe.vec.size + (objs.map s.store.outside).sum = cfg.eventsCap)
    (id : Nat) (delay : Int) (data : δ) :
    s.schedule b id delay data = .error (match b with | .debug => .assertFailed | .release => .ub) := by
  obtain ⟨q, h1, h2, h3⟩ := h.base hnd hl hs
  have hall := ES.exhausted h1 h2 (by rw [h3, ← hfull, h1.pipe.size])
  rcases fetch_any (b := b) h1 id delay data with ⟨o, s1, e1, e2, e3, _⟩ | ⟨_, e1⟩
  · exact absurd e3 (hall o e2)
  · cases b with
    | debug => simp only at e1 ⊢; rw [schedule, e1]; rfl
    | release =>
      obtain ⟨s1, e1, _⟩ := e1
      simp only [schedule, e1, res_bind_ok]
      simp [enqueue, Pipe.push, spnAssert_release, deref]

/-- C38 is false for `trigger(id)` as well, which needs an event object for the call. -/
theorem C38_trigger_counterexample (hnd : objs.Nodup) (hl : objs.length = cfg.eventsCap) (hs : cfg.eventsCap < 2 ^ 16)
    (h : Reach b beh cfg objs s) (hfull : s.pipe.vec.size + (objs.map s.store.outside).sum = cfg.eventsCap)
    (call : ES ω δ H → Event δ → Res (ES ω δ H)) (id : Nat) (data : δ) :
    s.triggerId b call id data = .error (match b with | .debug => .assertFailed | .release => .ub) := by
  obtain ⟨q, h1, h2, h3⟩ := h.base hnd hl hs
  have hall := ES.exhausted h1 h2 (by rw [h3, ← hfull, h1.pipe.size])
  rcases fetch_any (b := b) h1 id 0 data with ⟨o, s1, e1, e2, e3, _⟩ | ⟨_, e1⟩
  · exact absurd e3 (hall o e2)
  · cases b with
    | debug => simp only at e1 ⊢; rw [triggerId, e1]; rfl
    | release =>
      obtain ⟨s1, e1, _⟩ := e1
      simp only [triggerId, e1, res_bind_ok, spnAssert_release, deref, res_bind_error]

/-- C38 is false: with capacity 1 a handler cannot schedule the next event, because the event being delivered is still in use. -/
theorem C38_handler_counterexample :
    (do let s ← exampleSystem b 1 0
        let s ← s.run b (fun _ _ _ => .done) 1 1 (.schedule 0 10 5 (.wait 10 .done))
        s.loop b (fun _ _ e => .schedule 0 10 (e.data + 1) .done) 1 3 : Res (ES Nat Nat Nat)).map (fun s => s.clock)
      = .error (match b with | .debug => .assertFailed | .release => .ub) := by
  cases b <;> decide +kernel

/-- C38 (partial). Obtaining an event beyond the capacity is reported: `event()` returns a null pointer in release builds and fails an
assertion in debug builds. Missing: `schedule` and `trigger`, which follow the null pointer. -/
theorem C38_event_partial (hnd : objs.Nodup) (hl : objs.length = cfg.eventsCap) (hs : cfg.eventsCap < 2 ^ 16)
    (h : Reach b beh cfg objs s) (hfull : s.pipe.vec.size + (objs.map s.store.outside).sum = cfg.eventsCap)
    (id : Nat) (delay : Int) (data : δ) :
    (b = .debug → s.event b id delay data = .error .assertFailed) ∧
    (b = .release → ∃ s', s.event b id delay data = .ok (none, s')) := by
  obtain ⟨q, h1, h2, h3⟩ := h.base hnd hl hs
  have := ES.event_exhausted (b := b) h1 (ES.exhausted h1 h2 (by rw [h3, ← hfull, h1.pipe.size])) id delay data
  cases b <;> simpa using this

/-- Non-vacuity: such a state, one event pending and one held. -/
example : ((do let s ← exampleSystem b 2 0
               s.run b (fun _ _ _ => .done) 1 1 (.schedule 0 10 5 (.event 1 20 6 (fun _ => .done)))) :
      Res (ES Nat Nat Nat)).map (fun s => (s.pipe.vec.size, ([0, 1].map s.store.outside).sum)) = .ok (1, 1) := by
  cases b <;> decide +kernel

/-! ## C39 -/

/-- C39. After any history, with any handlers, a completed `trigger` has called, at its own nesting depth, exactly the handlers attached
to the id of the event when it began (as many as there is room for), each once per attachment, in the order in which they were attached,
with that event.  (Handlers may trigger further events, attach handlers and call `loop()`; what is called then is called at greater
depths, and handlers attached meanwhile are not called for this event.) -/
theorem C39_trigger (hh : cfg.handlerCap < sizeMod) (h : Reach b beh cfg objs s) {rounds nest depth : Nat}
    {e : Event δ} (ht : trigger b beh rounds nest depth s e = .ok s') :
    ∃ new, s'.trace = new ++ s.trace ∧ (∀ d, d < depth → callsAt d new = []) ∧
      (callsAt depth new).reverse.map (fun c => (some c.1, c.2)) = ((attached s.trace e.id).take cfg.handlerCap).map (fun x => (x, e)) := by
  obtain ⟨new, ⟨h1, _, h2⟩, h3⟩ := (trigger_calls nest depth s e s' ht).2 (h.map hh)
  exact ⟨new, h1, h2, by rw [← h.cfg_eq]; exact h3⟩

/-- C39, for events delivered by `loop()`: the handlers called directly are those attached to the ids of the delivered events at the moment
of delivery, event by event in the order of delivery. -/
theorem C39_loop (hh : cfg.handlerCap < sizeMod) (h : Reach b beh cfg objs s) {rounds nest fuel : Nat}
    (hr : s.drain b beh rounds nest fuel = .ok s') :
    ∃ new, s'.trace = new ++ s.trace ∧ (callsAt 0 new).reverse.map (fun c => (some c.1, c.2)) = owed cfg.handlerCap 0 s.trace new := by
  rw [← h.cfg_eq]
  exact drain_calls (trigger_calls nest 0) fuel s s' (h.map hh) hr

/-- C39: attaching. In debug builds `attach` returns only if the handler is not null, the id is one of the configured ones and there is
room; when it returns, the handler is the last one attached to the id, and the handlers of the other ids are the same as before. -/
theorem C39_attach (hh : cfg.handlerCap < sizeMod) (h : Reach b beh cfg objs s) {id : Nat} {x : Option H} (ha : s.attach b id x = .ok s') :
    id < cfg.eventsCount ∧ attached s'.trace id = attached s.trace id ++ [x] ∧ (∀ i, i ≠ id → attached s'.trace i = attached s.trace i) ∧
      (b = .debug → x ≠ none ∧ (attached s.trace id).length < cfg.handlerCap) := by
  obtain ⟨_, _, _, _, _, h1, _⟩ := attach_keeps (objs := objs) ha
  have hm := h.map hh
  refine ⟨?_, by rw [h1]; simp [attached], fun i hi => by rw [h1]; simp [attached, Ne.symm hi], fun hb => ?_⟩
  · unfold attach at ha
    simp only [bind_ok] at ha
    obtain ⟨_, _, _, _, v, hv, _⟩ := ha
    unfold rd at hv
    cases hx : s.map[id]? with
    | none => rw [hx] at hv; cases hv
    | some w =>
      obtain ⟨hlt, _⟩ := List.getElem?_eq_some_iff.mp hx
      rw [hm.length, h.cfg_eq] at hlt; exact hlt
  · subst hb
    unfold attach at ha
    simp only [bind_ok] at ha
    obtain ⟨_, h2, _, _, v, hv, _, h4, _⟩ := ha
    have hv1 : s.map[id]? = some v := by
      unfold rd at hv
      cases hx : s.map[id]? with
      | none => rw [hx] at hv; cases hv
      | some w => rw [hx] at hv; rw [Except.ok.inj hv]
    obtain ⟨post, log, rfl, hl⟩ := hm.slot id v hv1
    have hsm := hm.small
    refine ⟨fun hx => by subst hx; simp [spnAssert] at h2, ?_⟩
    rw [Vec.size_mk' (by simp only [Vec.Fits, List.length_nil]; omega), h.cfg_eq] at h4
    by_contra hc
    rw [List.length_take, Nat.min_eq_left (by omega)] at h4
    simp [spnAssert] at h4

/-- C39: in release builds a handler attached beyond the capacity is not called, and nothing tells. -/
theorem C39_beyond_capacity :
    (do let s ← ES.create .release { eventsCount := 1, eventsCap := 2, handlerCap := 1, delayBetweenTicks := false, minDelay := 0, maxDelay := 0 } [0, 1] 0 0
        let s ← s.attach .release 0 (some 7)
        let s ← s.attach .release 0 (some 8)
        s.run .release (fun _ _ _ => .done) 1 1 (.trigger 0 5 .done) : Res (ES Nat Nat Nat)).map
      (fun s => (attached s.trace 0, (callsAt 0 s.trace).map (·.1))) = .ok ([some 7, some 8], [7]) := by
  decide +kernel

/-- C39, progress: with handlers attached to the id and none of them null, `trigger` completes if the handlers do nothing that
could go wrong (here: nothing). -/
theorem C39_completes (hh : cfg.handlerCap < sizeMod) (h : Reach b beh cfg objs s) (rounds nest depth : Nat)
    (e : Event δ) (hid : e.id < cfg.eventsCount) (hne : (attached s.trace e.id).take cfg.handlerCap ≠ [])
    (hnull : ∀ x ∈ attached s.trace e.id, x ≠ none) (hbeh : ∀ h tr e, beh h tr e = .done) :
    ∃ s', trigger b beh rounds (nest + 1) depth s e = .ok s' := by
  have hm := h.map hh
  have hsm := hm.small
  have hlt : e.id < s.map.length := by rw [hm.length, h.cfg_eq]; exact hid
  obtain ⟨post, log, hmk, hl⟩ := hm.slot e.id _ (List.getElem?_eq_getElem hlt)
  rw [h.cfg_eq] at hmk hl hsm
  generalize hhs : (attached s.trace e.id).take cfg.handlerCap = hs at *
  have hnull' : ∀ x ∈ hs, x ≠ none := fun x hx => hnull x (List.mem_of_mem_take (hhs ▸ hx))
  have hsize : (s.map[e.id]).size = hs.length := by
    rw [hmk, Vec.size_mk' (by simp only [Vec.Fits, List.length_nil]; omega)]
  have hemp : (s.map[e.id]).empty = false := by
    unfold Vec.empty; rw [hsize]; simpa using hne
  have hhd : (s.map[e.id]).head = 0 := by rw [hmk]; rfl
  have key : ∀ (call : ES ω δ H → Event δ → Res (ES ω δ H)) (poll : ES ω δ H → Res (ES ω δ H)) (n i : Nat) (s1 : ES ω δ H), s1.map = s.map →
      i + n = hs.length → ∃ s', visit (handle b beh call poll depth e) e.id n i s1 = .ok s' := by
    intro call poll n
    induction n with
    | zero => intro i s1 _ _; exact ⟨s1, rfl⟩
    | succ n ih =>
      intro i s1 h1 h2
      have hi : i < hs.length := by omega
      have hread : rd (s.map[e.id]).store i = .ok hs[i] := by
        unfold rd
        rw [hmk]
        simp only [Vec.mk', List.nil_append]
        rw [List.getElem?_append_left hi, List.getElem?_eq_getElem hi]
      cases hx : hs[i] with
      | none => exact absurd hx (hnull' _ (List.getElem_mem hi))
      | some y =>
        rw [hx] at hread
        unfold visit
        have hrd : rd s1.map e.id = .ok s.map[e.id] := by unfold rd; rw [h1, List.getElem?_eq_getElem hlt]
        have : handle b beh call poll depth e s1 (some y) = .ok { s1 with trace := .called y e depth s1.clock :: s1.trace } := by
          simp only [handle, deref, res_bind_ok, hbeh, exec]
        rw [hrd, res_bind_ok, hread, res_bind_ok, this, res_bind_ok]
        exact ih _ _ h1 (by omega)
  obtain ⟨s', hs'⟩ := key (trigger b beh rounds nest (depth + 1)) (fun s => s.loopWith b (trigger b beh rounds nest (depth + 1)) (depth + 1) rounds)
    hs.length 0 s rfl (by omega)
  refine ⟨s', ?_⟩
  unfold trigger
  simp only [hlt, decide_true, spnAssert_true, res_bind_ok, rd, List.getElem?_eq_getElem hlt, hemp, Bool.not_false, hsize, hhd]
  exact hs'

/-- Non-vacuity: handler 7 attaches handler 8 to its own event, which is called the next time only, and calls `loop()`, which delivers
an event with handler 9 meanwhile. -/
example : (do let s ← exampleSystem b 3 0
              let s ← s.attach b 1 (some 9)
              let s ← s.run b (fun _ _ _ => .done) 1 1 (.schedule 1 10 6 (.wait 10 .done))
              let beh : Behaviour Nat Nat Nat := fun h tr _ => if h = 7 ∧ attached tr 0 = [some 7] then .attach 0 (some 8) (.loop .done) else .done
              let s ← s.run b beh 2 2 (.trigger 0 5 .done)
              s.run b beh 2 2 (.trigger 0 6 .done) : Res (ES Nat Nat Nat)).map
        (fun s => ((callsAt 0 s.trace).map (fun c => (c.1, c.2.data)), (callsAt 1 s.trace).map (fun c => (c.1, c.2.data)))) =
      .ok ([(8, 6), (7, 6), (7, 5)], [(9, 6)]) := by
  cases b <;> decide +kernel

/-- Non-vacuity: handlers 7 and 8 on event 0 and handler 9 on event 1; handler 8 triggers event 1. -/
example : (do let s ← exampleSystem b 3 0
              let s ← s.attach b 1 (some 9)
              let s ← s.attach b 0 (some 8)
              s.run b (fun h _ _ => if h = 8 then .trigger 1 6 .done else .done) 2 1 (.trigger 0 5 .done) : Res (ES Nat Nat Nat)).map
        (fun s => ((callsAt 0 s.trace).map (fun c => (c.1, c.2.data)), (callsAt 1 s.trace).map (fun c => (c.1, c.2.data)))) =
      .ok ([(8, 5), (7, 5)], [(9, 6)]) := by
  cases b <;> decide +kernel

/-! ## C40 -/

/-- C40 (partial). With uptimes up to 2^24 ms, `loop()` returns no later than the first deadline of the events then pending, if it
sleeps only (handlers take no time after the last check). Later on it may be late by one part in 2^24 of the uptime. -/
theorem C40_deadline_partial (hnd : objs.Nodup) (hl : objs.length = cfg.eventsCap) (hs : cfg.eventsCap < 2 ^ 16)
    (h : Reach b beh cfg objs s) (hmax : 0 ≤ cfg.maxDelay) {nest fuel : Nat} (hr : s.loop b beh nest fuel = .ok s') (ht : Tame s')
    {pending : List ω} (hp : s'.pipe.vec.Holds (pending.map some)) {o : ω} (ho : o ∈ pending) :
    (s'.clock ≤ 2 ^ 24 → s'.clock ≤ (s'.pipe.heap o).timer.future) ∧
    s'.clock ≤ (s'.pipe.heap o).timer.future + s'.clock / 2 ^ 24 := by
  unfold loop loopWith at hr
  rw [bind_ok] at hr
  obtain ⟨s1, hr1, hr2⟩ := hr
  obtain ⟨hg, hk⟩ := drain_keeps (objs := objs) (trigger_good _ _) fuel s s1 hr1
  have hg2 := (sleep_keeps (objs := objs) hr2).1
  obtain ⟨q, h1, _, hcfg⟩ := h.inv hnd hl hs (hg.tame (hg2.tame ht))
  obtain ⟨q', h2, h3⟩ := hk (hg2.tame ht) q h1
  have hcfg1 : s1.cfg = cfg := hg.cfg.trans hcfg
  have hb := near_bound s1.clock
  rw [abs_of_nonneg h2.clock, abs_le] at hb
  have hcl : s1.clock ≤ 2 ^ 40 := (hg2.tame ht).1
  have key : s'.pipe = s1.pipe ∧ (q' ≠ [] → ∀ x ∈ q', s'.clock ≤ x.deadline + (s1.clock - near s1.clock)) := by
    unfold sleep at hr2
    rw [h2.pipe.contains] at hr2
    split at hr2
    · cases q' with
      | nil =>
        simp only [List.isEmpty_nil, Bool.not_true, Bool.false_eq_true, if_false] at hr2
        rw [bind_ok] at hr2
        obtain ⟨ms, _, hr2⟩ := hr2
        rw [res_pure] at hr2
        rw [← Except.ok.inj hr2]
        exact ⟨rfl, fun hne => absurd rfl hne⟩
      | cons x q' =>
        simp only [List.isEmpty_cons, Bool.not_false, if_true] at hr2
        have hx := h3 x (by simp)
        have hhigh := h2.pipe.high x (by simp)
        rw [Pipe.timeUntilNext_spec (b := b) h2.pipe h2.clock hcl, res_bind_ok, res_pure] at hr2
        simp only [List.head?_cons, if_neg (not_le.mpr hx), hcfg1] at hr2
        rw [← Except.ok.inj hr2]
        refine ⟨rfl, fun _ y hy => ?_⟩
        have hyx : x.deadline ≤ y.deadline := by
          rcases List.mem_cons.mp hy with rfl | hy
          · exact le_refl _
          · exact (List.pairwise_cons.mp h2.pipe.sorted).1 y hy
        simp only [sleepFor]
        simp only [maxDelay] at hhigh
        have hmin0 : 0 ≤ min (x.deadline - near s1.clock) cfg.maxDelay := by omega
        have hmin : min (x.deadline - near s1.clock) cfg.maxDelay < 2 ^ 32 := by omega
        rw [Int.emod_eq_of_lt hmin0 hmin]
        omega
    · rw [← Except.ok.inj hr2]
      refine ⟨rfl, fun _ x hx => ?_⟩
      have := h3 x hx
      omega
  obtain ⟨k1, k2⟩ := key
  rw [k1] at hp ⊢
  rw [h2.pending hp] at ho
  obtain ⟨x, hx, rfl⟩ := List.mem_map.mp ho
  rw [h2.pipe.deadline x hx]
  have k3 := k2 (List.ne_nil_of_mem hx) x hx
  have hle := hg2.clock
  refine ⟨fun hc => ?_, ?_⟩
  · rw [near_eq (by rw [abs_of_nonneg h2.clock]; omega)] at k3; omega
  · have : s1.clock / 2 ^ 24 ≤ s'.clock / 2 ^ 24 := Int.ediv_le_ediv (by norm_num) hle
    omega

/-- C40 (partial). While events are pending, one sleep lasts at most as many *milliseconds* as `max_delay_between_ticks` has
*microseconds*. Missing: the factor of 1000 (`C40_max_counterexample`). -/
theorem C40_max_partial (hnd : objs.Nodup) (hl : objs.length = cfg.eventsCap) (hs : cfg.eventsCap < 2 ^ 16) (h : Reach b beh cfg objs s)
    (ht : Tame s) (hmax : 0 ≤ cfg.maxDelay) {pending : List ω} (hp : s.pipe.vec.Holds (pending.map some)) (hne : pending ≠ [])
    (hr : s.sleep b = .ok s') : s'.clock ≤ s.clock + cfg.maxDelay ∧ ∀ ms, s'.trace = .slept ms :: s.trace → ms ≤ cfg.maxDelay := by
  obtain ⟨q, h1, _, hcfg⟩ := h.inv hnd hl hs ht
  rw [h1.pending hp] at hne
  unfold sleep at hr
  rw [h1.pipe.contains, hcfg] at hr
  split at hr
  · cases q with
    | nil => exact absurd rfl hne
    | cons x q =>
      simp only [List.isEmpty_cons, Bool.not_false, if_true] at hr
      rw [Pipe.timeUntilNext_spec (b := b) h1.pipe h1.clock ht.1, res_bind_ok, res_pure] at hr
      rw [← Except.ok.inj hr]
      have hhigh := h1.pipe.high x (by simp)
      simp only [maxDelay] at hhigh
      simp only [List.head?_cons, sleepFor, List.cons.injEq, Entry.slept.injEq, and_true]
      have hn := near_bound s.clock
      have h40 := ht.1
      have hc := h1.clock
      rw [abs_of_nonneg hc, abs_le] at hn
      have hnn : 0 ≤ min (if x.deadline ≤ near s.clock then 0 else x.deadline - near s.clock) cfg.maxDelay := by
        split <;> omega
      have hle : min (if x.deadline ≤ near s.clock then 0 else x.deadline - near s.clock) cfg.maxDelay % 2 ^ 32 ≤ cfg.maxDelay :=
        (show ∀ m : Int, 0 ≤ m → m % 2 ^ 32 ≤ m from fun m hm => by omega) _ hnn |>.trans (min_le_right _ _)
      exact ⟨by omega, fun ms hm => hm ▸ hle⟩
  · rw [← Except.ok.inj hr]
    refine ⟨by omega, fun ms hm => ?_⟩
    have := congrArg List.length hm
    simp at this

/-- C40 is false: with the default configuration (at most one second between ticks) and one event ten seconds ahead, `loop()` sleeps
for ten seconds. -/
theorem C40_max_counterexample :
    (do let cfg ← Config.withDefaults 1 2 1 true
        let s ← ES.create b cfg [0, 1] 0 0
        let s ← s.attach b 0 (some 7)
        let s ← s.run b (fun _ _ _ => .done) 1 1 (.schedule 0 10000 5 .done)
        s.loop b (fun _ _ _ => .done) 1 1 : Res (ES Nat Nat Nat)).map (fun s => (s.cfg.maxDelay, s.clock, sleeps s.trace))
      = .ok (1000 * 1000, 10000, [10000]) := by
  cases b <;> decide +kernel

/-- Non-vacuity: with a bound of 200 µs the sleep is cut at 200 ms, before the deadline. -/
example :
    (do let s ← ES.create b { eventsCount := 1, eventsCap := 2, handlerCap := 1, delayBetweenTicks := true, minDelay := 0, maxDelay := 200 } [0, 1] 0 0
        let s ← s.attach b 0 (some 7)
        let s ← s.run b (fun _ _ _ => .done) 1 1 (.schedule 0 10000 5 .done)
        s.loop b (fun _ _ _ => .done) 1 1 : Res (ES Nat Nat Nat)).map (fun s => (s.clock, (s.pipe.heap 0).timer.future, sleeps s.trace))
      = .ok (200, 10000, [200]) := by
  cases b <;> decide +kernel

/-- C40, `loop()` with nothing pending: it sleeps for the configured minimum delay, to the nearest millisecond, if it is configured to sleep. -/
theorem C40_idle (hnd : objs.Nodup) (hl : objs.length = cfg.eventsCap) (hs : cfg.eventsCap < 2 ^ 16) (h : Reach b beh cfg objs s)
    (ht : Tame s) (h0 : 0 ≤ cfg.minDelay) (hmin : cfg.minDelay ≤ 3000000) (hp : s.pipe.vec.Holds []) :
    ∃ s', s.sleep b = .ok s' ∧ if cfg.delayBetweenTicks then ∃ ms, s'.trace = .slept ms :: s.trace ∧ s'.clock = s.clock + ms ∧
      |(ms : Rat) - cfg.minDelay / 1000| ≤ 1 / 2 else s' = s := by
  obtain ⟨q, h1, _, hcfg⟩ := h.inv hnd hl hs ht
  have hq : q = [] := by
    have := h1.pending (pending := []) (by simpa using hp)
    simpa using this.symm
  subst hq
  unfold sleep
  rw [h1.pipe.contains, hcfg]
  split
  · have e : Mag.per .micro .milli = 1 / 1000 := by decide +kernel
    obtain ⟨r, hr, hd⟩ := C32_nearest_partial .micro .milli (v := cfg.minDelay) (by rw [abs_of_nonneg h0]; exact hmin) (by
      rw [e, abs_of_nonneg (by exact_mod_cast h0)]
      have : (cfg.minDelay : Rat) ≤ 3000000 := by exact_mod_cast hmin
      linarith)
    have hr0 : 0 ≤ r := by
      rw [e, abs_le] at hd
      have : (0 : Rat) ≤ cfg.minDelay := by exact_mod_cast h0
      have : (-1 : Rat) < r := by linarith
      have : (-1 : Int) < r := by exact_mod_cast this
      omega
    simp only [List.isEmpty_nil, Bool.not_true, Bool.false_eq_true, if_false, hr, res_bind_ok, res_pure]
    refine ⟨_, rfl, r, rfl, ?_, ?_⟩
    · simp only [sleepFor]; omega
    · rw [e] at hd
      rwa [show (cfg.minDelay : Rat) / 1000 = 1 / 1000 * cfg.minDelay by ring]
  · exact ⟨s, rfl, rfl⟩

/-- With the default configuration it sleeps for 100 ms. -/
theorem C40_idle_default :
    (do let cfg ← Config.withDefaults 1 2 1 true
        let s ← ES.create b cfg [0, 1] 0 0
        s.loop b (fun _ _ _ => .done) 1 1 : Res (ES Nat Nat Nat)).map (fun s => (s.cfg.minDelay, s.clock, sleeps s.trace)) = .ok (100000, 100, [100]) := by
  cases b <;> decide +kernel

/-! ## C65 -/

/-- C65 (partial). With an uptime of at most 2^24 ms, and handlers that schedule events only ahead of the current time (by at most 2^23 ms),
take no time and do not call `loop()` themselves, the `while` loop of `loop()` ends after as many rounds as events were due when it began: more rounds make no difference; exactly
the events then due are delivered, in the order of the pipeline; and it does not run out of rounds.
Missing: later uptimes (`C65_diverges_counterexample`). -/
theorem C65_loop_partial (hnd : objs.Nodup) (hl : objs.length = cfg.eventsCap) (hs : cfg.eventsCap < 2 ^ 16)
    (h : Reach b beh cfg objs s) (ht : Tame s) (hc : s.clock ≤ 2 ^ 24)
    (hheld : ∀ o, s.store.outside o ≠ 0 → 0 < (s.pipe.heap o).timeFromNow ∧ (s.pipe.heap o).timeFromNow ≤ 2 ^ 23)
    {nested : Bool} (hbeh : ∀ h tr e, (beh h tr e).Forward nested 0 (2 ^ 23)) {pending : List ω}
    (hp : s.pipe.vec.Holds (pending.map some)) {due : List ω}
    (hdue : due = pending.filter fun o => decide ((s.pipe.heap o).timer.future ≤ s.clock)) (rounds nest : Nat) :
    (∀ fuel, due.length < fuel → s.drain b beh rounds nest fuel = s.drain b beh rounds nest (due.length + 1)) ∧
    (∀ s', s.drain b beh rounds nest (due.length + 1) = .ok s' →
      firedKeys s'.trace = (due.map fun o => (s.pipe.heap o).key).reverse ++ firedKeys s.trace) ∧
    (nested = false → 0 < nest → s.drain b beh rounds nest (due.length + 1) ≠ .error .fuel) := by
  obtain ⟨q, h1, _, hcfg⟩ := h.inv hnd hl hs ht
  have hn : near s.clock = s.clock := near_eq (by rw [abs_of_nonneg h1.clock]; exact hc)
  have hcalm : Calm objs s q := ⟨h1, ht, fun o ho => ⟨by rw [hn]; have := hheld o ho; omega, hheld o ho⟩⟩
  have hlook : LooksAhead beh nested s.clock := by
    intro h tr e
    rw [hn, sub_self]; exact hbeh h tr e
  have hkeys : due.map (fun o => (s.pipe.heap o).key) = dueKeys s q := by
    rw [hdue, h1.pending hp, dueKeys, hn, List.filter_map, List.map_map]
    congr 1
    apply List.filter_congr
    intro x hx
    simp only [Function.comp, h1.pipe.deadline x hx]
  have hlen : due.length = (dueKeys s q).length := by rw [← hkeys, List.length_map]
  obtain ⟨e1, e2, e3⟩ := drain_calm (b := b) (rounds := rounds) (nest := nest) hlook (dueKeys s q).length s q rfl hcalm rfl
  rw [hlen, hkeys]
  exact ⟨e1, e2, e3⟩

/-- C65 is false for later uptimes: 2^24+3 ms after start-up, `loop()` never returns once a handler keeps scheduling the next event 1 ms
ahead, although the clock would have to advance for it to be due. -/
theorem C65_diverges_counterexample : ∃ s : ES Nat Nat Nat,
    Reach b (fun _ _ _ => .schedule 0 1 5 .done) (exampleConfig 2) [0, 1] s ∧ s.clock = 2 ^ 24 + 3 ∧
    ∀ nest fuel, s.loop b (fun _ _ _ => .schedule 0 1 5 .done) (nest + 1) fuel = .error .fuel := by
  have hnd : ([0, 1] : List Nat).Nodup := by decide
  obtain ⟨s0, e1, e2, e3⟩ := create_inv (H := Nat) (b := b) (cfg := exampleConfig 2) (blank := (0 : Nat)) (now := 2 ^ 24 + 3) (by norm_num) hnd rfl
    (by decide)
  have hw0 : Reach b (fun _ _ _ => .schedule 0 1 5 .done) (exampleConfig 2) [0, 1] s0 := .create (by norm_num) e1
  obtain ⟨s1, e4, e5, e6, eA⟩ : ∃ s1 : ES Nat Nat Nat, exampleSystem b 2 (2 ^ 24 + 3) = .ok s1 ∧ s1.clock = 2 ^ 24 + 3 ∧
      ([0, 1].map s1.store.outside).sum = 0 ∧ attached s1.trace 0 = [some 7] := by
    have : (exampleSystem b 2 (2 ^ 24 + 3)).map (fun s => (s.clock, ([0, 1].map s.store.outside).sum, attached s.trace 0)) = .ok (2 ^ 24 + 3, 0, [some 7]) := by
      cases b <;> decide +kernel
    cases hx : exampleSystem b 2 (2 ^ 24 + 3) with
    | error e => rw [hx] at this; cases this
    | ok s1 => rw [hx] at this; simp only [Except.map, Except.ok.injEq, Prod.mk.injEq] at this; exact ⟨s1, rfl, this⟩
  have e7 : s0.attach b 0 (some 7) = .ok s1 := by
    have : ES.create b (exampleConfig 2) (List.range 2) 0 (2 ^ 24 + 3) = .ok s0 := e1
    rw [exampleSystem, this, res_bind_ok] at e4; exact e4
  have hw1 : Reach b (fun _ _ _ => .schedule 0 1 5 .done) (exampleConfig 2) [0, 1] s1 := .attach hw0 e7
  have hi1 := (attach_keeps (objs := [0, 1]) e7).2.2.2.2.2.2 _ e2
  have hcfg := hw1.cfg_eq
  have hloc : s1.locals = [] := by
    obtain ⟨_, _, h, _⟩ := hw1.base hnd rfl (by decide)
    exact h
  obtain ⟨o, s2, v', e8, e9, e10, e11⟩ := ES.schedule_spec (b := b) (id := 0) (delay := 1) (data := 5) hi1 (by rw [e5]; norm_num) (by norm_num)
    (by norm_num) (hi1.free (by rw [e6, hloc, hcfg]; decide))
  have hF := fetch_grows e8
  have hw2 : Reach b (fun _ _ _ => .schedule 0 1 5 .done) (exampleConfig 2) [0, 1] (s2.queued o v') :=
    .exec (p := .schedule 0 1 5 .done) (nest := 0) (fuel := 0) hw1 (by simp only [run, exec, e9, res_bind_ok])
  refine ⟨s2.queued o v', hw2, by simp only [queued, hF.clock]; exact e5, fun nest fuel => ?_⟩
  have := ES.diverges (b := b) (objs := [0, 1]) (cfg := exampleConfig 2) (h0 := 7) (5 : Nat) fuel nest (by decide) (by decide) (by decide)
    (now := 2 ^ 24 + 3) (by norm_num) (by decide +kernel) fuel (s2.queued o v') _ e11 hw2.cfg_eq (by simp only [queued, hF.clock]; exact e5)
    (by show s1.clock + 1 ≤ _; rw [e5]; decide +kernel) (by simp only [queued, hF.locals]; exact hloc)
    (by simp only [queued, hF.store]; exact e6) (by simp only [queued, if_true, hF.heap, Pipe.store]) (hw2.map (lt_sizeMod (by decide)))
    (by simp only [queued, hF.trace]; exact eA)
  rw [ES.loop, ES.loopWith]; rw [ES.drain] at this; rw [this]; rfl

end Spine
