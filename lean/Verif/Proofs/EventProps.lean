import Verif.Proofs.Dispatch
import Verif.Proofs.EventBase
/-!
# Proofs about `Pipeline` and `EventSystem`: histories of a pipeline, exhaustion
-/

set_option linter.unusedSectionVars false

namespace Spine

variable {ω δ H : Type} [DecidableEq ω] {b : Build}

theorem Pipe.step_spec {n : Nat} {p : Pipe ω δ} {st st' : Agenda.State ω} {op : Agenda.Op ω} {out : Agenda.Out ω} {now : Int}
    (hp : Pipe.Rep n p st.items now) (hb : st.items.Pairwise Item.Before) (ha : ∀ x ∈ st.items, x.arrival < st.made)
    (ht : now ≤ op.time) (h0 : 0 ≤ op.time) (h1 : op.time ≤ 2 ^ 40) (h : Agenda.step n (2 ^ 23) near st op = some (out, st')) :
    ∃ p', p.step b op = .ok (out, p') ∧ Pipe.Rep n p' st'.items op.time ∧ st'.items.Pairwise Item.Before ∧
      ∀ x ∈ st'.items, x.arrival < st'.made := by
  have hp := hp.later ht
  cases op with
  | push t o d =>
    change 0 ≤ t at h0; change t ≤ 2 ^ 40 at h1; change Pipe.Rep n p st.items t at hp
    simp only [Agenda.step] at h
    split at h
    · next hc =>
      obtain ⟨hc1, hc2, hc3, hc4⟩ := hc
      cases h
      have hne : ∀ x ∈ st.items, x.obj ≠ o := fun x hx he => hc2 (he ▸ List.mem_map_of_mem hx)
      have hr : Pipe.Rep n (p.store o { p.heap o with timeFromNow := d }) st.items t :=
        hp.heap _ (fun x hx => by simp only [hne x hx, if_false, true_and]; exact fun he => .inl he)
      have hd : ((p.store o { p.heap o with timeFromNow := d }).heap o).timeFromNow = d := by simp [Pipe.store]
      obtain ⟨v', e1, e2⟩ := Pipe.push_spec (b := b) (o := o) st.made hr h0 h1 hc1 hc2 (by rw [hd]; omega) (by rw [hd]; exact hc4)
        (.inr (by rw [hd]; exact hc3))
      rw [hd] at e1 e2
      refine ⟨_, by rw [Pipe.step, e1]; rfl, ?_, ?_, ?_⟩
      · exact e2
      · exact Pipe.insert_before hb ha
      · intro x hx
        rcases Pipe.mem_insert.mp hx with rfl | hx
        · exact Nat.lt_succ_self _
        · exact Nat.lt_succ_of_lt (ha x hx)
    · cases h
  | expire t =>
    change 0 ≤ t at h0; change t ≤ 2 ^ 40 at h1; change Pipe.Rep n p st.items t at hp
    simp only [Agenda.step] at h
    cases hq : st.items with
    | nil => rw [hq] at h; cases h
    | cons x q =>
      rw [hq] at h hp hb ha
      simp only at h
      split at h
      · next hd =>
        cases h
        obtain ⟨p', e1, _, e3⟩ := Pipe.expire_spec (b := b) hp h0 h1 hd
        exact ⟨p', by simp only [Pipe.step, e1, res_bind_ok, deref, res_pure], e3, (List.pairwise_cons.mp hb).2,
          fun y hy => ha y (List.mem_cons_of_mem _ hy)⟩
      · cases h
  | due t =>
    change 0 ≤ t at h0; change t ≤ 2 ^ 40 at h1; change Pipe.Rep n p st.items t at hp
    cases h
    obtain ⟨heap', e1, _, e3⟩ := Pipe.containsExpired_spec (b := b) hp h0 h1
    exact ⟨_, by simp only [Pipe.step, e1, res_bind_ok, res_pure], e3, hb, ha⟩
  | next t =>
    change 0 ≤ t at h0; change t ≤ 2 ^ 40 at h1; change Pipe.Rep n p st.items t at hp
    cases h
    have e1 := Pipe.timeUntilNext_spec (b := b) hp h0 h1
    exact ⟨p, by simp only [Pipe.step, e1, res_bind_ok, res_pure]; rfl, hp, hb, ha⟩

theorem Pipe.run_spec {n : Nat} : ∀ (ops : List (Agenda.Op ω)) {p : Pipe ω δ} {st st' : Agenda.State ω} {outs : List (Agenda.Out ω)} {now : Int},
    Pipe.Rep n p st.items now → st.items.Pairwise Item.Before → (∀ x ∈ st.items, x.arrival < st.made) →
    (∀ op ∈ ops, now ≤ op.time) → (ops.map (·.time)).Pairwise (· ≤ ·) → (∀ op ∈ ops, 0 ≤ op.time ∧ op.time ≤ 2 ^ 40) →
    Agenda.run n (2 ^ 23) near st ops = some (outs, st') →
    ∃ p' now', p.run b ops = .ok (outs, p') ∧ Pipe.Rep n p' st'.items now' ∧ st'.items.Pairwise Item.Before
  | [], p, st, st', outs, now, hp, hb, _, _, _, _, h => by
    cases h; exact ⟨p, now, rfl, hp, hb⟩
  | op :: ops, p, st, st', outs, now, hp, hb, ha, hn, hm, hr, h => by
    rw [Agenda.run] at h
    cases hs : Agenda.step n (2 ^ 23) near st op with
    | none => rw [hs] at h; cases h
    | some r =>
      obtain ⟨o, st1⟩ := r
      rw [hs] at h
      cases hr2 : Agenda.run n (2 ^ 23) near st1 ops with
      | none => simp only [Option.bind_eq_bind, Option.bind_some, hr2, Option.bind_none] at h; cases h
      | some r =>
        obtain ⟨os, st2⟩ := r
        simp only [Option.bind_eq_bind, Option.bind_some, hr2, Option.pure_def, Option.some.injEq, Prod.mk.injEq] at h
        obtain ⟨rfl, rfl⟩ := h
        rw [List.map_cons, List.pairwise_cons] at hm
        obtain ⟨p1, e1, e2, e3, e4⟩ := Pipe.step_spec (b := b) hp hb ha (hn op (by simp)) (hr op (by simp)).1 (hr op (by simp)).2 hs
        obtain ⟨p2, now2, e5, e6, e7⟩ := Pipe.run_spec ops e2 e3 e4 (fun op' ho => hm.1 _ (List.mem_map_of_mem ho)) hm.2
          (fun op' ho => hr op' (by simp [ho])) hr2
        exact ⟨p2, now2, by simp only [Pipe.run, e1, e5, res_bind_ok, res_pure], e6, e7⟩

theorem Pipe.Rep.start (n : Nat) (hn : n < sizeMod) (heap : ω → Event δ) (now : Int) :
    Pipe.Rep n { vec := Vec.create (sharedPtr ω) n, heap } [] now :=
  ⟨⟨[], List.replicate n none, [], by simp [Vec.create, Vec.mk'], by simp, hn, by simp, by simp [Seq.owned]⟩,
    by simp, by simp, by simp, by simp, by simp, by simp⟩

theorem Agenda.run_see {cap : Nat} {longest : Int} {f g : Int → Int} : ∀ (ops : List (Agenda.Op ω)) (st : Agenda.State ω),
    (∀ op ∈ ops, f op.time = g op.time) → Agenda.run cap longest f st ops = Agenda.run cap longest g st ops
  | [], _, _ => rfl
  | op :: ops, st, h => by
    have h1 : Agenda.step cap longest f st op = Agenda.step cap longest g st op := by
      have := h op (by simp)
      cases op <;> simp only [Agenda.Op.time] at this <;> simp only [Agenda.step, this]
    rw [Agenda.run, Agenda.run, h1]
    congr 1
    funext r
    obtain ⟨o, st'⟩ := r
    simp only [Agenda.run_see ops st' (fun op ho => h op (by simp [ho]))]

namespace ES

variable {beh : Behaviour ω δ H} {objs : List ω} {cfg : Config} {s s' : ES ω δ H}

theorem Inv.base {q : List (Item ω)} (h : Inv objs s q) : Base objs s (q.map (·.obj)) := by
  refine ⟨h.store, h.full, h.small, ⟨?_, h.pipe.nodup⟩, h.single, ?_, h.seqs⟩
  · rw [List.map_map]; exact h.pipe.vec
  · rw [List.map_map]; exact h.keys

theorem Base.pending {q pending : List ω} (h : Base objs s q) (hp : s.pipe.vec.Holds (pending.map some)) : pending = q := by
  have := hp.unique h.pipe.vec.rep.holds
  exact List.map_injective_iff.mpr (Option.some_injective ω) this

theorem Inv.pending {q : List (Item ω)} {pending : List ω} (h : Inv objs s q) (hp : s.pipe.vec.Holds (pending.map some)) :
    pending = q.map (·.obj) := h.base.pending hp

end ES

open ES

variable {beh : Behaviour ω δ H} {objs : List ω} {cfg : Config} {s s' : ES ω δ H}

/-- Obtaining as many events as there are free objects. -/
theorem ES.takes_spec {q : List ω} : ∀ (reqs : List (Nat × Int × δ)) (s : ES ω δ H), Base objs s q →
    reqs.length ≤ (objs.filter fun o => uses s q o = 0).length →
    ∃ (l : List ω) (s' : ES ω δ H), s.takes b reqs = .ok (l.map some, s') ∧ Base objs s' q ∧ l.Nodup ∧ l.length = reqs.length ∧
      (∀ o ∈ l, o ∈ objs ∧ uses s q o = 0) ∧ (∀ o, uses s' q o = uses s q o + l.count o) ∧ s'.cfg = s.cfg ∧ s'.pipe.vec = s.pipe.vec
  | [], s, h, _ => ⟨[], s, rfl, h, List.nodup_nil, rfl, by simp, by simp, rfl, rfl⟩
  | (id, delay, data) :: reqs, s, h, hl => by
    rcases fetch_any (b := b) h id delay data with ⟨o, s1, h1, h2, h3, h4, h5⟩ | ⟨h1, _⟩
    · have hF := fetch_grows h1
      have hev : s.event b id delay data = .ok (some o, { s1 with store := s1.store.gain (some o) }) := by
        simp only [event, h1, res_bind_ok, res_pure]
      set s2 : ES ω δ H := { s1 with store := s1.store.gain (some o) } with hs2
      have hb : Base objs s2 q := h5.gain h2 h4
      have hu : ∀ x, uses s2 q x = uses s q x + if x = o then 1 else 0 := by
        intro x
        simp only [hs2, uses, Pool.gain, hF.store, hF.locals]
        by_cases hx : x = o <;> simp only [hx, if_true, if_false] <;> omega
      have hlen : reqs.length ≤ (objs.filter fun o => uses s2 q o = 0).length := by
        have hc := h.count
        have hc2 := hb.count
        have hn := h.store.nodup
        have : (objs.filter fun x => uses s2 q x = 0) = (objs.filter fun x => uses s q x = 0).erase o := by
          rw [List.Nodup.erase_eq_filter (hn.filter _), List.filter_filter]
          apply List.filter_congr
          intro x _
          rw [hu]
          by_cases hx : x = o
          · subst hx; simp
          · simp [hx]
        rw [this, List.length_erase_of_mem (by simp [h2, h3])]
        simp only [List.length_cons] at hl; omega
      obtain ⟨l, s3, e1, e2, e3, e4, e5, e6, e7, e8⟩ := ES.takes_spec reqs s2 hb hlen
      refine ⟨o :: l, s3, ?_, e2, ?_, by simp [e4], ?_, ?_, e7.trans hF.cfg, e8.trans hF.vec⟩
      · rw [takes, hev]; simp only [res_bind_ok, e1, res_pure, List.map_cons]
      · refine List.nodup_cons.mpr ⟨fun hm => ?_, e3⟩
        have := (e5 o hm).2
        rw [hu] at this; simp at this
      · intro x hx
        rcases List.mem_cons.mp hx with rfl | hx
        · exact ⟨h2, h3⟩
        · have := e5 x hx
          rw [hu] at this
          exact ⟨this.1, by omega⟩
      · intro x
        rw [e6, hu, List.count_cons]
        by_cases hx : x = o
        · subst hx; simp; omega
        · simp [hx, Ne.symm hx]
    · exfalso
      have : (objs.filter fun o => uses s q o = 0) = [] := by
        rw [List.filter_eq_nil_iff]
        intro o ho
        simpa using h1 o ho
      rw [this] at hl; simp at hl

/-- What `event()` does when every object is in use. -/
theorem ES.event_exhausted {q : List ω} (h : Base objs s q) (hall : ∀ o ∈ objs, uses s q o ≠ 0) (id : Nat) (delay : Int) (data : δ) :
    match b with
    | .debug => s.event b id delay data = .error .assertFailed
    | .release => ∃ s', s.event b id delay data = .ok (none, s') := by
  rcases fetch_any (b := b) h id delay data with ⟨o, s1, h1, h2, h3, _⟩ | ⟨_, h1⟩
  · exact absurd h3 (hall o h2)
  · cases b with
    | debug => simp only at h1 ⊢; rw [event, h1]; rfl
    | release => obtain ⟨s1, h1, _⟩ := h1; simp only [event, h1, res_bind_ok, res_pure]; exact ⟨_, rfl⟩

theorem ES.exhausted {q : List ω} (h : Base objs s q) (hl : s.locals = [])
    (hfull : q.length + (objs.map s.store.outside).sum = s.cfg.eventsCap) : ∀ o ∈ objs, uses s q o ≠ 0 := by
  have hc := h.count
  rw [hl] at hc
  have h0 : (objs.filter fun o => uses s q o = 0).length = 0 := by simp only [List.length_nil] at hc; omega
  have h1 := List.length_eq_zero_iff.mp h0
  rw [List.filter_eq_nil_iff] at h1
  intro o ho
  simpa using h1 o ho

/-- One round of the loop with an event due. -/
theorem ES.drain_due {x : Item ω} {q : List (Item ω)} (h : Inv objs s (x :: q)) (hc : s.clock ≤ 2 ^ 40) (hx : x.deadline ≤ near s.clock) :
    ∃ p' : Pipe ω δ, Pipe.Same s.pipe.heap p'.heap ∧
      Inv objs { s.hold x.obj with pipe := p', trace := .fired (p'.heap x.obj) s.clock 0 :: s.trace } q ∧
      ∀ rounds nest fuel, s.drain b beh rounds nest (fuel + 1) =
        (trigger b beh rounds nest 0 { s.hold x.obj with pipe := p', trace := .fired (p'.heap x.obj) s.clock 0 :: s.trace } (p'.heap x.obj)) >>=
          fun s2 => (s2.unhold x.obj).drain b beh rounds nest fuel := by
  obtain ⟨heap', e1, e2, e3⟩ := Pipe.containsExpired_spec (b := b) h.pipe h.clock hc
  simp only [List.head?_cons, Option.any_some, hx, decide_true] at e1
  obtain ⟨p', e5, e6, e7⟩ := Pipe.expire_spec (b := b) e3 h.clock hc hx
  refine ⟨p', e2.trans e6, h.fire (e2.trans e6) e7 hx 0, fun rounds nest fuel => ?_⟩
  rw [drain, drainWith, e1]
  simp only [res_bind_ok, if_true, e5, Option.isSome_some, spnAssert_true, deref]
  rfl

/-- Scheduling with an object free. -/
theorem ES.schedule_spec {q : List (Item ω)} (h : Inv objs s q) (hc : s.clock ≤ 2 ^ 40) {id : Nat} {delay : Int} {data : δ}
    (hd : 0 < delay) (hd' : delay ≤ 2 ^ 23) (hfree : ∃ o ∈ objs, owners s q o = 0) :
    ∃ o s1 v', s.fetch b id delay data = .ok (some o, s1) ∧ s.schedule b id delay data = .ok (s1.queued o v') ∧
      (s1.pipe.heap o).timeFromNow = delay ∧
      Inv objs (s1.queued o v') (Agenda.insert ⟨o, s.clock + delay, s.count⟩ q) := by
  rcases fetch_spec (b := b) h id delay data with ⟨o, s1, e1, e2, e3, e4⟩ | ⟨e1, _⟩
  · have hF := fetch_grows e1
    have hto : (s1.pipe.heap o).timeFromNow = delay := by rw [hF.heap]; simp [Pipe.store]
    obtain ⟨v', e5, e6⟩ := enqueue_spec (b := b) e4 e2 (by simpa only [owners, hF.store, hF.locals] using e3)
      (by rw [hF.clock]; exact hc) (by rw [hto]; omega) (by rw [hto]; exact hd') (by rw [hto]; exact .inr hd)
    rw [hto, hF.clock, hF.count] at e6
    exact ⟨o, s1, v', e1, by rw [schedule, e1, res_bind_ok]; exact e5, hto, e6⟩
  · obtain ⟨o, ho, hz⟩ := hfree
    exact absurd hz (e1 o ho)

/-- Fewer objects in use than the capacity: one is free. -/
theorem ES.Inv.free {q : List (Item ω)} (h : Inv objs s q)
    (hroom : q.length + (objs.map s.store.outside).sum + s.locals.length < s.cfg.eventsCap) : ∃ o ∈ objs, owners s q o = 0 := by
  by_contra hno
  push Not at hno
  have hc := h.base.count
  have h0 : (objs.filter fun o => uses s (q.map (·.obj)) o = 0) = [] := by
    rw [List.filter_eq_nil_iff]
    intro o ho
    have : uses s (q.map (·.obj)) o ≠ 0 := hno o ho
    simpa only [decide_eq_true_eq] using this
  rw [h0] at hc
  simp only [List.length_nil, List.length_map] at hc; omega

/-- A handler that schedules the next event 1 ms ahead never ends when the clock is read as one ms ahead. -/
theorem ES.diverges {h0 : H} (d0 : δ) (rounds nest : Nat) (hcap : 2 ≤ cfg.eventsCap) (hhc : 0 < cfg.handlerCap)
    (hcount : 0 < cfg.eventsCount) {now : Int} (hnow : now ≤ 2 ^ 40) (hahead : now + 1 ≤ near now) :
    ∀ (fuel : Nat) (s : ES ω δ H) (x : Item ω), Inv objs s [x] → s.cfg = cfg → s.clock = now → x.deadline ≤ near now →
      s.locals = [] → (objs.map s.store.outside).sum = 0 → (s.pipe.heap x.obj).id = 0 → MapRep s →
      attached s.trace 0 = [some h0] → s.drain b (fun _ _ _ => .schedule 0 1 d0 .done) rounds (nest + 1) fuel = .error .fuel
  | 0, s, x, _, _, _, _, _, _, _, _, _ => rfl
  | fuel + 1, s, x, h, hcfg, hcl, hx, hloc, hout, hid, hm, hatt => by
    obtain ⟨p', e1, e2, e3⟩ := ES.drain_due (b := b) (beh := fun _ _ _ => .schedule 0 1 d0 .done) h (by rw [hcl]; exact hnow)
      (by rw [hcl]; exact hx)
    set s1 : ES ω δ H := { s.hold x.obj with pipe := p', trace := .fired (p'.heap x.obj) s.clock 0 :: s.trace } with hs1
    set e := p'.heap x.obj with he
    have heid : e.id = 0 := by obtain ⟨f, hf⟩ := e1 x.obj; rw [he, hf]; exact hid
    have hlt : e.id < s1.map.length := by rw [heid]; exact hm.length.trans (by rw [hcfg]) ▸ hcount
    obtain ⟨post, log, hmk, hl⟩ := hm.slot e.id s1.map[e.id] (List.getElem?_eq_getElem hlt)
    have hq : (attached s.trace e.id).take s.cfg.handlerCap = [some h0] := by
      rw [heid, hatt, hcfg]; exact List.take_of_length_le (by simp; omega)
    rw [hq] at hmk hl
    have hsz : (s1.map[e.id]).size = 1 := by
      rw [hmk, Vec.size_mk' (by have := hm.small; simp only [Vec.Fits, List.length_nil]; omega)]; rfl
    have hemp : (s1.map[e.id]).empty = false := by unfold Vec.empty; rw [hsz]; rfl
    have hhd : (s1.map[e.id]).head = 0 := by rw [hmk]; rfl
    have hst : (s1.map[e.id]).store[0]? = some (some h0) := by rw [hmk]; rfl
    set s2 : ES ω δ H := { s1 with trace := .called h0 e 0 s1.clock :: s1.trace } with hs2
    have hi2 : Inv objs s2 [] := e2.called h0 e 0 s1.clock
    have hfree := hi2.free (by
      simp only [hs2, hs1, ES.hold, hloc, hcfg, hout, List.length_nil, List.length_cons]; omega)
    obtain ⟨o, s3, v', e4, e5, e6, e7⟩ := ES.schedule_spec (b := b) (id := 0) (delay := 1) (data := d0) hi2
      (by simp only [hs2, hs1, ES.hold, hcl]; exact hnow) (by norm_num) (by norm_num) hfree
    have hF := fetch_grows e4
    have htr : trigger b (fun _ _ _ => .schedule 0 1 d0 .done) rounds (nest + 1) 0 s1 e = .ok (s3.queued o v') := by
      rw [trigger]
      simp only [hlt, decide_true, spnAssert_true, res_bind_ok, rd, List.getElem?_eq_getElem hlt, hemp, Bool.not_false, hsz, hhd]
      simp only [visit, rd, List.getElem?_eq_getElem hlt, hst, handle, deref, res_bind_ok, exec, ← hs2, e5]
    rw [e3, htr, res_bind_ok]
    have hins : Agenda.insert ⟨o, s2.clock + 1, s2.count⟩ [] = [⟨o, s2.clock + 1, s2.count⟩] := rfl
    rw [hins] at e7
    refine ES.diverges (h0 := h0) d0 rounds nest hcap hhc hcount hnow hahead fuel _ _ (e7.unhold x.obj) ?_ ?_ ?_ ?_ ?_ ?_ ?_ ?_
    · simp only [ES.unhold, queued, hF.cfg]; exact hcfg
    · simp only [ES.unhold, queued, hF.clock]; exact hcl
    · show s.clock + 1 ≤ _
      rw [hcl]; exact hahead
    · simp only [ES.unhold, queued, hF.locals]
      show (x.obj :: s.locals).erase x.obj = []
      rw [hloc]; simp
    · simp only [ES.unhold, queued, hF.store]; exact hout
    · simp only [ES.unhold, queued, if_true, hF.heap, Pipe.store]
    · exact hm.same (by simp only [ES.unhold, queued, hF.map]; rfl) (by simp only [ES.unhold, queued, hF.cfg]; rfl)
        (fun id => by simp only [ES.unhold, queued, hF.trace]; rfl)
    · simp only [ES.unhold, queued, hF.trace]; exact hatt

end Spine
