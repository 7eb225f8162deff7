import Verif.Spec.Cyclic
import Verif.Proofs.EventProps
/-!
# Proofs about periodic tasks
-/

set_option linter.unusedSectionVars false

namespace Spine

variable {ω δ H : Type} [DecidableEq ω] {b : Build}

namespace ES

variable {beh : Behaviour ω δ H} {cfg : Config} {objs : List ω} {s s' : ES ω δ H} {q : List (Item ω)} {period : Nat → Int}

/-- The pending events as tasks. -/
def tasks (s : ES ω δ H) (q : List (Item ω)) : List Cyclic.Task := q.map fun x => ⟨(s.pipe.heap x.obj).id, x.deadline⟩

/-- A system with periodic tasks between two calls of `loop()`. -/
structure Ticking (cfg : Config) (objs : List ω) (s : ES ω δ H) (q : List (Item ω)) : Prop where
  inv : Inv objs s q
  conf : s.cfg = cfg
  locals : s.locals = []
  out : (objs.map s.store.outside).sum = 0
  map : MapRep s
  room : q.length < cfg.eventsCap
  ready : ∀ x ∈ q, (s.pipe.heap x.obj).id < cfg.eventsCount ∧ ∃ h, attached s.trace (s.pipe.heap x.obj).id = [some h]

theorem tasks_insert (s : ES ω δ H) (x : Item ω) (q : List (Item ω)) :
    s.tasks (Agenda.insert x q) = Cyclic.insert ⟨(s.pipe.heap x.obj).id, x.deadline⟩ (s.tasks q) := by
  simp only [tasks, Agenda.insert, Cyclic.insert, List.map_append, List.map_cons, List.takeWhile_map, List.dropWhile_map]
  rfl

/-- One event is delivered. -/
theorem Ticking.fire {x : Item ω} (h : Ticking cfg objs s (x :: q)) (hbeh : ∀ y tr e, ∃ d, beh y tr e = .schedule e.id (period e.id) d .done)
    (hper : ∀ id, 0 < period id ∧ period id ≤ 2 ^ 23) (hhc : 0 < cfg.handlerCap) (hc40 : s.clock ≤ 2 ^ 40) (hx : x.deadline ≤ near s.clock) :
    ∃ s1 q1, Ticking cfg objs s1 q1 ∧ s1.clock = s.clock ∧
      s1.tasks q1 = Cyclic.insert ⟨(s.pipe.heap x.obj).id, s.clock + period (s.pipe.heap x.obj).id⟩ (s.tasks q) ∧
      callLog s1.trace = ((s.pipe.heap x.obj).id, s.clock) :: callLog s.trace ∧
      ∀ rounds nest fuel, s.drain b beh rounds (nest + 1) (fuel + 1) = s1.drain b beh rounds (nest + 1) fuel := by
  obtain ⟨p', e1, e2, e3⟩ := ES.drain_due (b := b) (beh := beh) h.inv hc40 hx
  set s1 : ES ω δ H := { s.hold x.obj with pipe := p', trace := .fired (p'.heap x.obj) s.clock 0 :: s.trace } with hs1
  set e := p'.heap x.obj with he
  have hids : ∀ o, (p'.heap o).id = (s.pipe.heap o).id := fun o => by obtain ⟨f, hf⟩ := e1 o; rw [hf]
  have heid : e.id = (s.pipe.heap x.obj).id := hids x.obj
  obtain ⟨hid, h0, hatt⟩ := h.ready x (by simp)
  have hlt : e.id < s1.map.length := by rw [heid]; exact h.map.length.trans (by rw [h.conf]) ▸ hid
  obtain ⟨post, log, hmk, hl⟩ := h.map.slot e.id s1.map[e.id] (List.getElem?_eq_getElem hlt)
  have hq : (attached s.trace e.id).take s.cfg.handlerCap = [some h0] := by
    rw [heid, hatt, h.conf]; exact List.take_of_length_le (by simp; omega)
  rw [hq] at hmk hl
  have hsz : (s1.map[e.id]).size = 1 := by
    rw [hmk, Vec.size_mk' (by have := h.map.small; simp only [Vec.Fits, List.length_nil]; omega)]; rfl
  have hemp : (s1.map[e.id]).empty = false := by unfold Vec.empty; rw [hsz]; rfl
  have hhd : (s1.map[e.id]).head = 0 := by rw [hmk]; rfl
  have hst : (s1.map[e.id]).store[0]? = some (some h0) := by rw [hmk]; rfl
  set s2 : ES ω δ H := { s1 with trace := .called h0 e 0 s1.clock :: s1.trace } with hs2
  have hi2 : Inv objs s2 q := e2.called h0 e 0 s1.clock
  have hroom := h.room
  rw [List.length_cons] at hroom
  have hfree := hi2.free (by
    simp only [hs2, hs1, ES.hold, h.locals, h.conf, h.out, List.length_nil, List.length_cons]; omega)
  obtain ⟨d0, hd0⟩ := hbeh h0 s1.trace e
  obtain ⟨o, s3, v', e4, e5, e6, e7⟩ := ES.schedule_spec (b := b) (id := e.id) (delay := period e.id) (data := d0) hi2 hc40 (hper _).1 (hper _).2 hfree
  have hF := fetch_grows e4
  have ho : o ∉ q.map (·.obj) := by
    intro hm
    have := ((fetch_inv hi2 e4).2 o rfl).2
    simp only [owners, if_pos hm] at this; omega
  have htr : ∀ rounds nest, trigger b beh rounds (nest + 1) 0 s1 e = .ok (s3.queued o v') := by
    intro rounds nest
    rw [trigger]
    simp only [hlt, decide_true, spnAssert_true, res_bind_ok, rd, List.getElem?_eq_getElem hlt, hemp, Bool.not_false, hsz, hhd]
    simp only [visit, rd, List.getElem?_eq_getElem hlt, hst, handle, deref, res_bind_ok, hd0, exec, ← hs2, e5]
  -- ids of the pending events
  have hheap : ∀ y ∈ q, (((s3.queued o v').unhold x.obj).pipe.heap y.obj).id = (s.pipe.heap y.obj).id := by
    intro y hy
    have hne : y.obj ≠ o := fun hh => ho (hh ▸ List.mem_map_of_mem hy)
    simp only [ES.unhold, queued, hne, if_false, hF.heap, Pipe.store]
    exact hids y.obj
  have hnew : (((s3.queued o v').unhold x.obj).pipe.heap o).id = e.id := by
    simp only [ES.unhold, queued, if_true, hF.heap, Pipe.store]
  have hattd : ∀ id, attached ((s3.queued o v').unhold x.obj).trace id = attached s.trace id := by
    intro id; simp only [ES.unhold, queued, hF.trace]; rfl
  refine ⟨(s3.queued o v').unhold x.obj, Agenda.insert ⟨o, s2.clock + period e.id, s2.count⟩ q, ⟨e7.unhold x.obj, ?_, ?_, ?_, ?_, ?_, ?_⟩, ?_, ?_, ?_, fun rounds nest fuel => ?_⟩
  · simp only [ES.unhold, queued, hF.cfg]; exact h.conf
  · simp only [ES.unhold, queued, hF.locals]
    show (x.obj :: s.locals).erase x.obj = []
    rw [h.locals]; simp
  · simp only [ES.unhold, queued, hF.store]; exact h.out
  · exact h.map.same (by simp only [ES.unhold, queued, hF.map]; rfl) (by simp only [ES.unhold, queued, hF.cfg]; rfl) hattd
  · rw [(Pipe.insert_perm _ _).length_eq, List.length_cons]; exact hroom
  · intro y hy
    rcases Pipe.mem_insert.mp hy with rfl | hy
    · rw [hnew, heid]; exact ⟨hid, h0, (hattd _).trans hatt⟩
    · rw [hheap y hy, hattd]; exact h.ready y (by simp [hy])
  · simp only [ES.unhold, queued, hF.clock]; rfl
  · rw [tasks_insert, hnew, heid]
    congr 1
    simp only [tasks]
    apply List.map_congr_left
    intro y hy
    rw [hheap y hy]
  · simp only [ES.unhold, queued, hF.trace]
    show (e.id, s.clock) :: callLog s.trace = _
    rw [heid]
  · rw [e3, htr, res_bind_ok]

theorem _root_.Spine.Cyclic.takeWhile_insert {c : Int} {x : Cyclic.Task} (hx : c < x.deadline) (l : List Cyclic.Task) :
    (Cyclic.insert x l).takeWhile (fun z => decide (z.deadline ≤ c)) = l.takeWhile (fun z => decide (z.deadline ≤ c)) := by
  induction l with
  | nil => simp [Cyclic.insert, hx]
  | cons y l ih =>
    unfold Cyclic.insert at ih ⊢
    by_cases hy : y.deadline ≤ x.deadline
    · simp only [List.takeWhile_cons, List.dropWhile_cons, hy, decide_true, if_true, List.cons_append, List.takeWhile_cons]
      by_cases hc : y.deadline ≤ c
      · simp only [hc, decide_true, if_true, ih]
      · simp only [hc, decide_false, Bool.false_eq_true, if_false]
    · have : ¬ y.deadline ≤ c := by omega
      simp [List.takeWhile_cons, hy, this, hx]

theorem _root_.Spine.Cyclic.dropWhile_insert {c : Int} {x : Cyclic.Task} (hx : c < x.deadline) (l : List Cyclic.Task) :
    (Cyclic.insert x l).dropWhile (fun z => decide (z.deadline ≤ c)) = Cyclic.insert x (l.dropWhile (fun z => decide (z.deadline ≤ c))) := by
  induction l with
  | nil => simp [Cyclic.insert, hx]
  | cons y l ih =>
    unfold Cyclic.insert at ih ⊢
    by_cases hc : y.deadline ≤ c
    · have hy : y.deadline ≤ x.deadline := by omega
      simp only [List.takeWhile_cons, List.dropWhile_cons, hy, hc, decide_true, if_true, List.cons_append, ih]
    · by_cases hy : y.deadline ≤ x.deadline
      · simp [List.takeWhile_cons, List.dropWhile_cons, hy, hc]
      · simp [List.takeWhile_cons, List.dropWhile_cons, hy, hc, hx]

/-- The loop serves the tasks that are due. -/
theorem Ticking.drain (hbeh : ∀ y tr e, ∃ d, beh y tr e = .schedule e.id (period e.id) d .done)
    (hper : ∀ id, 0 < period id ∧ period id ≤ 2 ^ 23) (hhc : 0 < cfg.handlerCap) (rounds nest : Nat) :
    ∀ (n : Nat) (s : ES ω δ H) (q : List (Item ω)), Ticking cfg objs s q → s.clock ≤ 2 ^ 24 →
      ((s.tasks q).takeWhile fun z => decide (z.deadline ≤ s.clock)).length = n → ∀ fuel, n < fuel →
      ∃ s1 q1, s.drain b beh rounds (nest + 1) fuel = .ok s1 ∧ Ticking cfg objs s1 q1 ∧
        (⟨s1.clock, s1.tasks q1, (callLog s1.trace).reverse⟩ : Cyclic.State) = Cyclic.serve period ⟨s.clock, s.tasks q, (callLog s.trace).reverse⟩ := by
  intro n
  induction n with
  | zero =>
    intro s q h hc hn fuel hf
    obtain ⟨fuel, rfl⟩ : ∃ k, fuel = k + 1 := ⟨fuel - 1, by omega⟩
    have hnear : near s.clock = s.clock := near_eq (by rw [abs_of_nonneg h.inv.clock]; exact hc)
    have hc40 : s.clock ≤ 2 ^ 40 := hc.trans (by norm_num)
    obtain ⟨heap', e1, e2, e3⟩ := Pipe.containsExpired_spec (b := b) h.inv.pipe h.inv.clock hc40
    have hnone : (s.tasks q).takeWhile (fun z => decide (z.deadline ≤ s.clock)) = [] := List.length_eq_zero_iff.mp hn
    have hfalse : q.head?.any (fun x => decide (x.deadline ≤ near s.clock)) = false := by
      cases q with
      | nil => rfl
      | cons y q =>
        simp only [tasks, List.map_cons, List.takeWhile_cons] at hnone
        split at hnone
        · cases hnone
        · next hd => simpa [hnear] using hd
    rw [hfalse] at e1
    have hids : ∀ o, (heap' o).id = (s.pipe.heap o).id := fun o => by obtain ⟨f, hf⟩ := e2 o; rw [hf]
    refine ⟨{ s with pipe := { s.pipe with heap := heap' } }, q, ?_, ?_, ?_⟩
    · rw [ES.drain, drainWith, e1]; rfl
    · refine ⟨h.inv.same e2 e3, h.conf, h.locals, h.out, h.map.same rfl rfl (fun _ => rfl), h.room, fun y hy => ?_⟩
      have := h.ready y hy
      simp only [hids]; exact this
    · have htk : ({ s with pipe := { s.pipe with heap := heap' } } : ES ω δ H).tasks q = s.tasks q := by
        simp only [tasks, hids]
      have hdrop : (s.tasks q).dropWhile (fun z => decide (z.deadline ≤ s.clock)) = s.tasks q := by
        have := List.takeWhile_append_dropWhile (p := fun z : Cyclic.Task => decide (z.deadline ≤ s.clock)) (l := s.tasks q)
        rw [hnone] at this; exact this
      simp only [Cyclic.serve, hnone, List.foldl_nil, List.map_nil, List.append_nil, htk, hdrop]
  | succ n ih =>
    intro s q h hc hn fuel hf
    obtain ⟨fuel, rfl⟩ : ∃ k, fuel = k + 1 := ⟨fuel - 1, by omega⟩
    cases q with
    | nil => simp [tasks] at hn
    | cons x q =>
      by_cases hx : x.deadline ≤ s.clock
      · obtain ⟨s1, q1, h1, h2, h3, h4, h5⟩ := h.fire (b := b) hbeh hper hhc (hc.trans (by norm_num))
          (by rw [near_eq (by rw [abs_of_nonneg h.inv.clock]; exact hc)]; exact hx)
        have hlate : s.clock < (⟨(s.pipe.heap x.obj).id, s.clock + period (s.pipe.heap x.obj).id⟩ : Cyclic.Task).deadline := by
          have := (hper (s.pipe.heap x.obj).id).1
          simp only; omega
        have htw : ((s1.tasks q1).takeWhile fun z => decide (z.deadline ≤ s.clock)) = (s.tasks q).takeWhile fun z => decide (z.deadline ≤ s.clock) := by
          rw [h3, Cyclic.takeWhile_insert hlate]
        have hdw : ((s1.tasks q1).dropWhile fun z => decide (z.deadline ≤ s.clock)) =
            Cyclic.insert ⟨(s.pipe.heap x.obj).id, s.clock + period (s.pipe.heap x.obj).id⟩ ((s.tasks q).dropWhile fun z => decide (z.deadline ≤ s.clock)) := by
          rw [h3, Cyclic.dropWhile_insert hlate]
        have hcons : s.tasks (x :: q) = ⟨(s.pipe.heap x.obj).id, x.deadline⟩ :: s.tasks q := rfl
        rw [hcons, List.takeWhile_cons] at hn
        simp only [hx, decide_true, if_true, List.length_cons] at hn
        obtain ⟨s2, q2, h6, h7, h8⟩ := ih s1 q1 h1 (by rw [h2]; exact hc) (by rw [h2, htw]; omega) fuel (by omega)
        refine ⟨s2, q2, by rw [h5]; exact h6, h7, h8.trans ?_⟩
        simp only [Cyclic.serve, h2, htw, hdw, h4, hcons, List.takeWhile_cons, List.dropWhile_cons, hx, decide_true, if_true, List.foldl_cons, List.map_cons,
          List.reverse_cons, List.append_assoc, List.singleton_append]
      · rw [show s.tasks (x :: q) = ⟨(s.pipe.heap x.obj).id, x.deadline⟩ :: s.tasks q from rfl, List.takeWhile_cons] at hn
        simp [hx] at hn

end ES

/-! ### The specification -/

namespace Cyclic

variable {period : Nat → Int} {nap : Option Int} {st : State}

theorem insert_perm (x : Task) (l : List Task) : (insert x l).Perm (x :: l) := by
  unfold insert
  refine List.perm_middle.trans ?_
  rw [List.takeWhile_append_dropWhile]

/-- In order of deadlines. -/
def Sorted (l : List Task) : Prop := l.Pairwise fun a c => a.deadline ≤ c.deadline

theorem after {c : Int} : ∀ {l : List Task}, Sorted l → ∀ z ∈ l.dropWhile (fun z => decide (z.deadline ≤ c)), c < z.deadline
  | [], _, z, hz => by simp at hz
  | y :: l, hs, z, hz => by
    obtain ⟨h1, h2⟩ := List.pairwise_cons.mp hs
    rw [List.dropWhile_cons] at hz
    split at hz
    · exact after h2 z hz
    · next hy =>
      simp only [decide_eq_true_eq, not_le] at hy
      rcases List.mem_cons.mp hz with rfl | hz
      · exact hy
      · exact lt_of_lt_of_le hy (h1 z hz)

theorem Sorted.insert {l : List Task} (h : Sorted l) (x : Task) : Sorted (insert x l) := by
  have h' := h
  unfold Sorted at h'
  rw [← List.takeWhile_append_dropWhile (p := fun z : Task => decide (z.deadline ≤ x.deadline)) (l := l), List.pairwise_append] at h'
  obtain ⟨h1, h2, h3⟩ := h'
  unfold Sorted Cyclic.insert
  rw [List.pairwise_append]
  refine ⟨h1, List.pairwise_cons.mpr ⟨fun y hy => (after h y hy).le, h2⟩, ?_⟩
  intro a ha c hc
  rcases List.mem_cons.mp hc with rfl | hc
  · simpa using Pipe.takeWhile_all ha
  · exact h3 a ha c hc

theorem serve_tasks (period : Nat → Int) (c : Int) : ∀ (due base : List Task),
    (due.foldl (fun l x => insert ⟨x.id, c + period x.id⟩ l) base).Perm (base ++ due.map fun x => ⟨x.id, c + period x.id⟩) ∧
      (Sorted base → Sorted (due.foldl (fun l x => insert ⟨x.id, c + period x.id⟩ l) base))
  | [], base => by simp
  | x :: due, base => by
    obtain ⟨h1, h2⟩ := serve_tasks period c due (insert ⟨x.id, c + period x.id⟩ base)
    refine ⟨?_, fun h => h2 (h.insert _)⟩
    simp only [List.foldl_cons, List.map_cons]
    refine h1.trans (((insert_perm _ _).append_right _).trans ?_)
    exact List.perm_middle.symm

theorem serve_sorted (h : Sorted st.tasks) : Sorted (serve period st).tasks := by
  refine (serve_tasks period st.clock _ _).2 ?_
  have h' := h
  unfold Sorted at h' ⊢
  rw [← List.takeWhile_append_dropWhile (p := fun z : Task => decide (z.deadline ≤ st.clock)) (l := st.tasks), List.pairwise_append] at h'
  exact h'.2.1

theorem serve_later (h : Sorted st.tasks) (hper : ∀ id, 0 < period id) : ∀ z ∈ (serve period st).tasks, st.clock < z.deadline := by
  intro z hz
  have := (serve_tasks period st.clock (st.tasks.takeWhile fun z => decide (z.deadline ≤ st.clock))
    (st.tasks.dropWhile fun z => decide (z.deadline ≤ st.clock))).1.mem_iff.mp hz
  rcases List.mem_append.mp this with hz | hz
  · exact after h z hz
  · obtain ⟨y, _, rfl⟩ := List.mem_map.mp hz
    have := hper y.id
    simp only; omega

theorem serve_nonempty (h : st.tasks ≠ []) : (serve period st).tasks ≠ [] := by
  intro he
  have hp := (serve_tasks period st.clock (st.tasks.takeWhile fun z => decide (z.deadline ≤ st.clock))
    (st.tasks.dropWhile fun z => decide (z.deadline ≤ st.clock))).1.length_eq
  have he' : (List.foldl (fun l x => insert ⟨x.id, st.clock + period x.id⟩ l) (st.tasks.dropWhile fun z => decide (z.deadline ≤ st.clock))
    (st.tasks.takeWhile fun z => decide (z.deadline ≤ st.clock))) = [] := he
  rw [he'] at hp
  have hl := congrArg List.length (List.takeWhile_append_dropWhile (p := fun z : Task => decide (z.deadline ≤ st.clock)) (l := st.tasks))
  simp only [List.length_append, List.length_nil, List.length_map] at hp hl
  exact h (List.length_eq_zero_iff.mp (by omega))

/-- Sleeping ends before the first deadline passes. -/
theorem sleep_spec (h : Sorted st.tasks) (hl : ∀ z ∈ st.tasks, st.clock < z.deadline) (hnap : ∀ most, nap = some most → 0 ≤ most) :
    (sleep nap st).tasks = st.tasks ∧ (sleep nap st).calls = st.calls ∧ st.clock ≤ (sleep nap st).clock ∧
      ∀ z ∈ st.tasks, (sleep nap st).clock ≤ z.deadline := by
  unfold sleep
  split
  · next most x l htl =>
    have h1 := hl x (by rw [htl]; simp)
    have h2 := hnap most rfl
    refine ⟨rfl, rfl, by simp only; omega, fun z hz => ?_⟩
    have : x.deadline ≤ z.deadline := by
      rw [htl] at hz h
      rcases List.mem_cons.mp hz with rfl | hz
      · exact le_refl _
      · exact (List.pairwise_cons.mp h).1 z hz
    simp only; omega
  · exact ⟨rfl, rfl, le_refl _, fun z hz => (hl z hz).le⟩

/-- A list with a single task of an id, split by time. -/
theorem split_single {c D : Int} {id : Nat} {l : List Task} (hs : Sorted l) (h : l.filter (fun z => decide (z.id = id)) = [⟨id, D⟩]) :
    ((l.takeWhile fun z => decide (z.deadline ≤ c)).filter (fun z => decide (z.id = id)) = if D ≤ c then [⟨id, D⟩] else []) ∧
      (l.dropWhile fun z => decide (z.deadline ≤ c)).filter (fun z => decide (z.id = id)) = if D ≤ c then [] else [⟨id, D⟩] := by
  have h' := h
  rw [← List.takeWhile_append_dropWhile (p := fun z : Task => decide (z.deadline ≤ c)) (l := l), List.filter_append] at h'
  rcases List.append_eq_singleton_iff.mp h' with ⟨h1, h2⟩ | ⟨h1, h2⟩
  · have hm : (⟨id, D⟩ : Task) ∈ l.dropWhile fun z => decide (z.deadline ≤ c) := by
      have : (⟨id, D⟩ : Task) ∈ (l.dropWhile fun z => decide (z.deadline ≤ c)).filter (fun z => decide (z.id = id)) := by rw [h2]; simp
      exact (List.mem_filter.mp this).1
    have := after hs _ hm
    simp only at this
    rw [if_neg (by omega), if_neg (by omega)]
    exact ⟨h1, h2⟩
  · have hm : (⟨id, D⟩ : Task) ∈ l.takeWhile fun z => decide (z.deadline ≤ c) := by
      have : (⟨id, D⟩ : Task) ∈ (l.takeWhile fun z => decide (z.deadline ≤ c)).filter (fun z => decide (z.id = id)) := by rw [h1]; simp
      exact (List.mem_filter.mp this).1
    have := Pipe.takeWhile_all hm
    simp only [decide_eq_true_eq] at this
    rw [if_pos this, if_pos this]
    exact ⟨h1, h2⟩

theorem callsOf_append (id : Nat) (l l' : List (Nat × Int)) : callsOf id (l ++ l') = callsOf id l ++ callsOf id l' := by
  simp [callsOf]

theorem callsOf_map (id : Nat) (c : Int) (l : List Task) :
    callsOf id (l.map fun x => (x.id, c)) = (l.filter fun z => decide (z.id = id)).map fun _ => c := by
  induction l with
  | nil => rfl
  | cons x l ih =>
    simp only [callsOf, List.map_cons, List.filter_cons] at ih ⊢
    split <;> simp_all

/-- What one round does to one task. -/
theorem serve_one {id : Nat} {D : Int} (hs : Sorted st.tasks) (h : st.tasks.filter (fun z => decide (z.id = id)) = [⟨id, D⟩]) :
    (serve period st).tasks.filter (fun z => decide (z.id = id)) = [⟨id, if D ≤ st.clock then st.clock + period id else D⟩] ∧
      callsOf id (serve period st).calls = callsOf id st.calls ++ if D ≤ st.clock then [st.clock] else [] := by
  obtain ⟨h1, h2⟩ := split_single (c := st.clock) hs h
  constructor
  · have hp := ((serve_tasks period st.clock (st.tasks.takeWhile fun z => decide (z.deadline ≤ st.clock))
      (st.tasks.dropWhile fun z => decide (z.deadline ≤ st.clock))).1.filter (fun z => decide (z.id = id)))
    rw [List.filter_append, h2, List.filter_map] at hp
    have hcomp : ((fun z : Task => decide (z.id = id)) ∘ fun x : Task => (⟨x.id, st.clock + period x.id⟩ : Task)) = fun z : Task => decide (z.id = id) := rfl
    rw [hcomp, h1] at hp
    have hp' : ((serve period st).tasks.filter fun z => decide (z.id = id)).Perm [⟨id, if D ≤ st.clock then st.clock + period id else D⟩] := by
      refine hp.trans (List.Perm.of_eq ?_)
      split <;> rfl
    exact List.perm_singleton.mp hp'
  · show callsOf id (st.calls ++ _) = _
    rw [callsOf_append, callsOf_map, h1]
    split <;> rfl

/-- A task is called at its pace. -/
theorem run_paced {id : Nat} {L : Int} (hper : ∀ id, 0 < period id) (hnap : ∀ most, nap = some most → 0 ≤ most) :
    ∀ (ws : List Nat) (st : State) (D : Int), Sorted st.tasks → st.tasks.filter (fun z => decide (z.id = id)) = [⟨id, D⟩] → st.clock ≤ D →
      (∀ w ∈ ws, (w : Int) ≤ L) →
      ∃ cs e, callsOf id (run period nap st ws).calls = callsOf id st.calls ++ cs ∧ Paced (period id) L D cs e ∧ (run period nap st ws).clock ≤ e
  | [], st, D, _, _, hc, _ => ⟨[], D, by simp [run], rfl, hc⟩
  | w :: ws, st, D, hs, h, hc, hw => by
    have hs1 := serve_sorted (period := period) (st := { st with clock := st.clock + w }) hs
    obtain ⟨h1, h2⟩ := serve_one (period := period) (st := { st with clock := st.clock + w }) hs h
    have hlater := serve_later (period := period) (st := { st with clock := st.clock + w }) hs hper
    obtain ⟨g1, g2, g3, g4⟩ := sleep_spec (nap := nap) hs1 hlater hnap
    have hwL := hw w (by simp)
    simp only at h1 h2
    set D' := if D ≤ st.clock + w then st.clock + w + period id else D with hD'
    have hmem : (⟨id, D'⟩ : Task) ∈ (serve period { st with clock := st.clock + w }).tasks := by
      have : (⟨id, D'⟩ : Task) ∈ (serve period { st with clock := st.clock + w }).tasks.filter (fun z => decide (z.id = id)) := by rw [h1]; simp
      exact (List.mem_filter.mp this).1
    obtain ⟨cs, e, k1, k2, k3⟩ := run_paced (L := L) (id := id) hper hnap ws (round period nap st w) D' (by unfold round; rw [g1]; exact hs1)
      (by unfold round; rw [g1]; exact h1) (g4 _ hmem) (fun w' hw' => hw w' (by simp [hw']))
    refine ⟨(if D ≤ st.clock + w then [st.clock + w] else []) ++ cs, e, ?_, ?_, k3⟩
    · show callsOf id (run period nap (round period nap st w) ws).calls = _
      have g2' : (round period nap st w).calls = (serve period { st with clock := st.clock + w }).calls := g2
      rw [k1, g2', h2, List.append_assoc]
    · by_cases hd : D ≤ st.clock + w
      · simp only [hd, if_true] at hD' ⊢
        rw [hD'] at k2
        exact ⟨hd, by omega, k2⟩
      · simp only [hd, if_false] at hD' ⊢
        rw [hD'] at k2
        exact k2

/-- Without delays elsewhere, calls come exactly at their times. -/
theorem Paced.exact {T e : Int} : ∀ {cs : List Int} {d : Int}, Paced T 0 d cs e → cs = (List.range cs.length).map (fun k : Nat => d + k * T) ∧ e = d + cs.length * T
  | [], d, h => by simpa [Paced] using h
  | c :: cs, d, h => by
    obtain ⟨h1, h2, h3⟩ := h
    have hc : c = d := by omega
    subst hc
    obtain ⟨k1, k2⟩ := Paced.exact h3
    constructor
    · rw [List.length_cons, List.range_succ_eq_map, List.map_cons, List.map_map]
      congr 1
      · simp
      · conv_lhs => rw [k1]
        apply List.map_congr_left
        intro i _
        simp only [Function.comp, Nat.succ_eq_add_one]; push_cast; ring
    · rw [k2, List.length_cons]; push_cast; ring

/-- Calls keep their distance, but not more than that. -/
theorem Paced.gaps {T L e : Int} : ∀ {cs : List Int} {d : Int}, Paced T L d cs e → cs.Chain' fun a c => a + T ≤ c ∧ c ≤ a + T + L
  | [], _, _ => List.isChain_nil
  | [_], _, _ => List.isChain_singleton _
  | a :: c :: cs, _, h => by
    obtain ⟨_, _, h3⟩ := h
    exact List.isChain_cons_cons.mpr ⟨⟨h3.1, h3.2.1⟩, Paced.gaps h3⟩

end Cyclic

/-! ### The event system follows the specification -/

namespace ES

variable {beh : Behaviour ω δ H} {cfg : Config} {objs : List ω} {s s' : ES ω δ H} {q : List (Item ω)} {period : Nat → Int}

/-- What the specification sees of a state. -/
def cyclic (s : ES ω δ H) (q : List (Item ω)) : Cyclic.State := ⟨s.clock, s.tasks q, (callLog s.trace).reverse⟩

theorem Ticking.sorted (h : Ticking cfg objs s q) : Cyclic.Sorted (s.tasks q) := by
  unfold Cyclic.Sorted tasks
  rw [List.pairwise_map]
  exact h.inv.pipe.sorted

theorem Ticking.sleep (h : Ticking cfg objs s q) (hne : q ≠ []) (hc : s.clock ≤ 2 ^ 24) (hl : ∀ z ∈ s.tasks q, s.clock < z.deadline) (hmax : 0 ≤ cfg.maxDelay) :
    ∃ s1, s.sleep b = .ok s1 ∧ Ticking cfg objs s1 q ∧ s1.cyclic q = Cyclic.sleep (nap cfg) (s.cyclic q) := by
  cases q with
  | nil => exact absurd rfl hne
  | cons x q =>
    have hn : near s.clock = s.clock := near_eq (by rw [abs_of_nonneg h.inv.clock]; exact hc)
    unfold ES.sleep
    rw [h.conf, h.inv.pipe.contains]
    by_cases hd : cfg.delayBetweenTicks = true
    · simp only [hd, if_true, List.isEmpty_cons, Bool.not_false]
      rw [Pipe.timeUntilNext_spec (b := b) h.inv.pipe h.inv.clock (hc.trans (by norm_num))]
      have hx := hl ⟨(s.pipe.heap x.obj).id, x.deadline⟩ (by simp [tasks])
      simp only at hx
      have hhigh := h.inv.pipe.high x (by simp)
      have hmd : Spine.maxDelay = 2 ^ 23 := rfl
      have hnx : ¬ x.deadline ≤ s.clock := by omega
      simp only [List.head?_cons, hn, if_neg hnx, res_bind_ok, res_pure]
      have hmod : (min (x.deadline - s.clock) cfg.maxDelay) % 2 ^ 32 = min (x.deadline - s.clock) cfg.maxDelay := by
        apply Int.emod_eq_of_lt <;> omega
      rw [hmod]
      refine ⟨_, rfl, ⟨h.inv.slept _, h.conf, h.locals, h.out, h.map.same rfl rfl (fun _ => rfl), h.room, h.ready⟩, ?_⟩
      have hmm : max (min (x.deadline - s.clock) cfg.maxDelay) 0 = min (x.deadline - s.clock) cfg.maxDelay := by omega
      simp only [cyclic, Cyclic.sleep, nap, hd, if_true, sleepFor, tasks, List.map_cons, callLog, hmm]
    · simp only [hd, Bool.false_eq_true, if_false]
      refine ⟨s, rfl, h, ?_⟩
      simp only [cyclic, Cyclic.sleep, nap, hd, Bool.false_eq_true, if_false]

/-- Time passes. -/
theorem Ticking.wait (h : Ticking cfg objs s q) (w : Nat) : Ticking cfg objs { s with clock := s.clock + w } q := by
  have h2 : s.clock ≤ s.clock + w := by omega
  exact ⟨{ h.inv with pipe := h.inv.pipe.later h2, clock := h.inv.clock.trans h2 }, h.conf, h.locals, h.out, h.map.same rfl rfl (fun _ => rfl), h.room, h.ready⟩

theorem Cyclic.clock_le {period : Nat → Int} {nap : Option Int} (hper : ∀ id, 0 < period id) (hnap : ∀ most, nap = some most → 0 ≤ most) :
    ∀ (ws : List Nat) (st : Cyclic.State), Cyclic.Sorted st.tasks → st.clock ≤ (Cyclic.run period nap st ws).clock
  | [], st, _ => le_refl _
  | w :: ws, st, h => by
    have hs := Cyclic.serve_sorted (period := period) (st := { st with clock := st.clock + w }) h
    have h1 := Cyclic.sleep_spec (nap := nap) hs (Cyclic.serve_later h hper) hnap
    have h2 := Cyclic.clock_le hper hnap ws (Cyclic.round period nap st w) (by unfold Cyclic.round; rw [h1.1]; exact hs)
    have h3 : st.clock + w ≤ (Cyclic.round period nap st w).clock := h1.2.2.1
    show st.clock ≤ (Cyclic.run period nap (Cyclic.round period nap st w) ws).clock
    omega

theorem Ticking.run (hbeh : ∀ y tr e, ∃ d, beh y tr e = .schedule e.id (period e.id) d .done) (hper : ∀ id, 0 < period id ∧ period id ≤ 2 ^ 23)
    (hhc : 0 < cfg.handlerCap) (hmax : 0 ≤ cfg.maxDelay) (nest fuel : Nat) (hfuel : cfg.eventsCap ≤ fuel) :
    ∀ (ws : List Nat) (s : ES ω δ H) (q : List (Item ω)), Ticking cfg objs s q → q ≠ [] → (Cyclic.run period (nap cfg) (s.cyclic q) ws).clock ≤ 2 ^ 24 →
      ∃ s1 q1, s.run b beh (nest + 1) fuel (polls ws) = .ok s1 ∧ Ticking cfg objs s1 q1 ∧ s1.cyclic q1 = Cyclic.run period (nap cfg) (s.cyclic q) ws
  | [], s, q, h, _, _ => ⟨s, q, rfl, h, rfl⟩
  | w :: ws, s, q, h, hne, hend => by
    have hnap : ∀ most, nap cfg = some most → 0 ≤ most := by
      intro most hm
      unfold nap at hm
      split at hm
      · cases hm; exact hmax
      · cases hm
    have hper' : ∀ id, 0 < period id := fun id => (hper id).1
    set sw : ES ω δ H := { s with clock := s.clock + w } with hsw
    have hw : Ticking cfg objs sw q := h.wait w
    have hserve := Cyclic.serve_sorted (period := period) (st := sw.cyclic q) hw.sorted
    have hlater := Cyclic.serve_later (st := sw.cyclic q) hw.sorted hper'
    have hsl := Cyclic.sleep_spec (nap := nap cfg) hserve hlater hnap
    have hround : Cyclic.round period (nap cfg) (s.cyclic q) w = Cyclic.sleep (nap cfg) (Cyclic.serve period (sw.cyclic q)) := rfl
    have hend' : (Cyclic.run period (nap cfg) (Cyclic.round period (nap cfg) (s.cyclic q) w) ws).clock ≤ 2 ^ 24 := hend
    have hmono := Cyclic.clock_le hper' hnap ws (Cyclic.round period (nap cfg) (s.cyclic q) w) (by rw [hround, hsl.1]; exact hserve)
    have hc : sw.clock ≤ 2 ^ 24 := by
      have h1 : (Cyclic.serve period (sw.cyclic q)).clock = sw.clock := rfl
      have h2 := hsl.2.2.1
      rw [hround] at hmono hend'
      omega
    have hlen : ((sw.tasks q).takeWhile fun z => decide (z.deadline ≤ sw.clock)).length < fuel := by
      have h1 := (List.takeWhile_sublist (l := sw.tasks q) (fun z => decide (z.deadline ≤ sw.clock))).length_le
      have h2 : (sw.tasks q).length = q.length := by simp [tasks]
      have := hw.room
      omega
    obtain ⟨s1, q1, e1, e2, e3⟩ := Ticking.drain (b := b) hbeh hper hhc fuel nest _ sw q hw hc rfl fuel hlen
    have e3' : s1.cyclic q1 = Cyclic.serve period (sw.cyclic q) := e3
    have hclock : s1.clock = sw.clock := congrArg Cyclic.State.clock e3'
    have htasks : s1.tasks q1 = (Cyclic.serve period (sw.cyclic q)).tasks := congrArg Cyclic.State.tasks e3'
    have hne1 : q1 ≠ [] := by
      rintro rfl
      have h1 : (sw.cyclic q).tasks ≠ [] := by
        simp only [cyclic, tasks]
        exact fun h => hne (List.map_eq_nil_iff.mp h)
      exact Cyclic.serve_nonempty (period := period) h1 htasks.symm
    obtain ⟨s2, f1, f2, f3⟩ := e2.sleep (b := b) hne1 (by rw [hclock]; exact hc) (by rw [htasks, hclock]; exact hlater) hmax
    have hcyc : s2.cyclic q1 = Cyclic.round period (nap cfg) (s.cyclic q) w := by rw [f3, e3', hround]
    obtain ⟨s3, q3, g1, g2, g3⟩ := Ticking.run hbeh hper hhc hmax nest fuel hfuel ws s2 q1 f2 hne1 (by rw [hcyc]; exact hend')
    refine ⟨s3, q3, ?_, g2, by rw [g3, hcyc]; rfl⟩
    have hloop : sw.loop b beh (nest + 1) fuel = .ok s2 := by
      have e1' : sw.drainWith b (trigger b beh fuel (nest + 1) 0) 0 fuel = .ok s1 := e1
      rw [ES.loop, loopWith, e1', res_bind_ok, f1]
    have : s.run b beh (nest + 1) fuel (polls (w :: ws)) = s2.run b beh (nest + 1) fuel (polls ws) := by
      simp only [ES.run, polls, exec, ← hsw, hloop, res_bind_ok]
    rw [this, g1]

/-- One task is started. -/
theorem Ticking.job (h : Ticking cfg objs s q) (j : Job δ H) (hhc : 0 < cfg.handlerCap) (hroom : q.length + 1 < cfg.eventsCap)
    (hid : j.id < cfg.eventsCount) (hatt : attached s.trace j.id = []) (hd : 0 < j.delay ∧ j.delay ≤ 2 ^ 23) (hc : s.clock ≤ 2 ^ 40) :
    ∃ s1 q1, (∀ call poll k, s.exec b call poll (.attach j.id (some j.handler) (.schedule j.id j.delay j.data k)) = s1.exec b call poll k) ∧
      Ticking cfg objs s1 q1 ∧ q1.length = q.length + 1 ∧ s1.clock = s.clock ∧ s1.tasks q1 = Cyclic.insert ⟨j.id, s.clock + j.delay⟩ (s.tasks q) ∧
      callLog s1.trace = callLog s.trace ∧ ∀ id, id ≠ j.id → attached s1.trace id = attached s.trace id := by
  have hlt : j.id < s.map.length := by rw [h.map.length, h.conf]; exact hid
  obtain ⟨post, log, hmk, hl⟩ := h.map.slot j.id s.map[j.id] (List.getElem?_eq_getElem hlt)
  rw [hatt, h.conf] at hmk hl
  simp only [List.take_nil, List.length_nil, Nat.zero_add] at hmk hl
  have hsmall := h.map.small
  rw [h.conf] at hsmall
  have hsz : (s.map[j.id]).size = 0 := by
    rw [hmk, Vec.size_mk' (by simp only [Vec.Fits, List.length_nil]; omega)]; rfl
  obtain ⟨p, post, rfl⟩ : ∃ p post', post = p :: post' := by
    cases post with
    | nil => simp at hl; omega
    | cons p post => exact ⟨p, post, rfl⟩
  obtain ⟨s1, ha⟩ : ∃ s1, s.attach b j.id (some j.handler) = .ok s1 := by
    unfold attach
    simp only [Option.isSome_some, spnAssert_true, res_bind_ok, hlt, decide_true, rd, List.getElem?_eq_getElem hlt, hsz, h.conf, hhc]
    rw [hmk, Vec.pushBack_room, res_bind_ok]
    exact ⟨_, rfl⟩
  obtain ⟨hG, a1, a2, a3, a4, a5, a6⟩ := attach_keeps (objs := objs) ha
  have hi1 := a6 q h.inv
  have hconf : s1.cfg = cfg := hG.cfg.trans h.conf
  have hloc : s1.locals = [] := hG.locals.trans h.locals
  have hout : (objs.map s1.store.outside).sum = 0 := by rw [a1]; exact h.out
  have hfree := hi1.free (by rw [hloc, hout, hconf]; simp only [List.length_nil]; omega)
  obtain ⟨o, s3, v', e4, e5, e6, e7⟩ := ES.schedule_spec (b := b) (id := j.id) (delay := j.delay) (data := j.data) hi1
    (by rw [a3]; exact hc) hd.1 hd.2 hfree
  have hF := fetch_grows e4
  have ho : o ∉ q.map (·.obj) := by
    intro hm
    have := ((fetch_inv hi1 e4).2 o rfl).2
    simp only [owners, if_pos hm] at this; omega
  have hheap : ∀ y ∈ q, ((s3.queued o v').pipe.heap y.obj).id = (s.pipe.heap y.obj).id := by
    intro y hy
    have hne : y.obj ≠ o := fun hh => ho (hh ▸ List.mem_map_of_mem hy)
    simp only [queued, hne, if_false, hF.heap, Pipe.store, a2]
  have hnew : ((s3.queued o v').pipe.heap o).id = j.id := by
    simp only [queued, if_true, hF.heap, Pipe.store]
  have htrace : (s3.queued o v').trace = .scheduled ((s3.queued o v').pipe.heap o) s3.clock :: .attached j.id (some j.handler) :: s.trace := by
    simp only [queued, hF.trace, a5, if_true]
  have hattd : ∀ id, attached (s3.queued o v').trace id = attached s.trace id ++ if j.id = id then [some j.handler] else [] := by
    intro id
    rw [htrace]
    simp only [attached]
    split <;> simp
  refine ⟨s3.queued o v', Agenda.insert ⟨o, s1.clock + j.delay, s1.count⟩ q, fun call poll k => ?_, ⟨e7, ?_, ?_, ?_, ?_, ?_, ?_⟩, ?_, ?_, ?_, ?_, ?_⟩
  · rw [exec, ha, res_bind_ok, exec, e5, res_bind_ok]
  · simp only [queued, hF.cfg]; exact hconf
  · simp only [queued, hF.locals]; exact hloc
  · simp only [queued, hF.store]; exact hout
  · exact (hG.map h.map).same (by simp only [queued, hF.map]) (by simp only [queued, hF.cfg]) (fun id => by
      rw [htrace, a5]; rfl)
  · rw [(Pipe.insert_perm _ _).length_eq, List.length_cons]; exact hroom
  · intro y hy
    rcases Pipe.mem_insert.mp hy with rfl | hy
    · rw [hnew, hattd, hatt]; exact ⟨hid, j.handler, by simp⟩
    · rw [hheap y hy, hattd]
      obtain ⟨r1, h1, r2⟩ := h.ready y hy
      refine ⟨r1, h1, ?_⟩
      have : j.id ≠ (s.pipe.heap y.obj).id := by
        intro he
        rw [← he, hatt] at r2
        cases r2
      rw [r2, if_neg this]; rfl
  · exact (Pipe.insert_perm _ _).length_eq
  · simp only [queued, hF.clock]; exact a3
  · rw [tasks_insert, hnew, a3]
    congr 1
    simp only [tasks]
    apply List.map_congr_left
    intro y hy
    rw [hheap y hy]
  · rw [htrace]; rfl
  · intro id hne
    rw [hattd, if_neg (fun he => hne he.symm), List.append_nil]

theorem Ticking.start (hhc : 0 < cfg.handlerCap) : ∀ (js : List (Job δ H)) (s : ES ω δ H) (q : List (Item ω)), Ticking cfg objs s q →
    q.length + js.length < cfg.eventsCap → (js.map (·.id)).Nodup → (∀ j ∈ js, j.id < cfg.eventsCount ∧ 0 < j.delay ∧ j.delay ≤ 2 ^ 23) →
    (∀ j ∈ js, attached s.trace j.id = []) → s.clock ≤ 2 ^ 40 →
    ∃ s1 q1, (∀ call poll k, s.exec b call poll (ES.start k js) = s1.exec b call poll k) ∧ Ticking cfg objs s1 q1 ∧ q1.length = q.length + js.length ∧
      s1.cyclic q1 = ⟨s.clock, started s.clock js (s.tasks q), (callLog s.trace).reverse⟩
  | [], s, q, h, _, _, _, _, _ => ⟨s, q, fun _ _ _ => rfl, h, rfl, rfl⟩
  | j :: js, s, q, h, hroom, hnd, hjs, hatt, hc => by
    obtain ⟨hn1, hn2⟩ := List.nodup_cons.mp hnd
    rw [List.length_cons] at hroom
    obtain ⟨h1, h2⟩ := hjs j (by simp)
    obtain ⟨s1, q1, e1, e2, e3, e4, e5, e6, e7⟩ := h.job (b := b) j hhc (by omega) h1 (hatt j (by simp)) h2 hc
    obtain ⟨s2, q2, f1, f2, f3, f4⟩ := Ticking.start hhc js s1 q1 e2 (by omega) hn2 (fun i hi => hjs i (by simp [hi]))
      (fun i hi => by
        rw [e7 i.id (fun he => hn1 (List.mem_map.mpr ⟨i, hi, he⟩))]
        exact hatt i (by simp [hi]))
      (by rw [e4]; exact hc)
    refine ⟨s2, q2, fun call poll k => ?_, f2, by rw [f3, e3, List.length_cons]; omega, ?_⟩
    · rw [ES.start, e1, f1]
    · rw [f4, e4, e5, e6]; rfl

/-- A new system has no tasks. -/
theorem Ticking.create {blank : δ} {now : Int} (hn : 0 ≤ now) (hnd : objs.Nodup) (hl : objs.length = cfg.eventsCap)
    (hs : cfg.eventsCap < 2 ^ 16) (hh : cfg.handlerCap < sizeMod) (hcap : 0 < cfg.eventsCap) :
    ∃ s : ES ω δ H, create b cfg objs blank now = .ok s ∧ Ticking cfg objs s [] ∧ s.clock = now ∧ s.trace = [] := by
  obtain ⟨s, h1, h2, h3⟩ := create_inv (b := b) (δ := δ) (H := H) (blank := blank) hn hnd hl hs
  have hm := create_map hh h1
  have h1' := h1
  unfold ES.create at h1'
  rw [bind_ok] at h1'
  obtain ⟨p, hp, hc⟩ := h1'
  have hsz : cfg.eventsCap < sizeMod := lt_sizeMod (by omega)
  obtain ⟨p', k1, _, k3⟩ := populate_all (b := b) objs [] _ (Pool.Rep.create hsz (fun _ => 0)) (by simpa using hnd) (by simp [hl])
  rw [hp] at k1
  obtain rfl := Except.ok.inj k1
  rw [res_pure] at hc
  refine ⟨s, h1, ⟨h2, h3, ?_, ?_, hm, hcap, by simp⟩, ?_, ?_⟩
  · rw [← Except.ok.inj hc]
  · rw [← Except.ok.inj hc]; simp [k3, Pool.create]
  · rw [← Except.ok.inj hc]
  · rw [← Except.ok.inj hc]

theorem started_spec (now : Int) : ∀ (js : List (Job δ H)) (l : List Cyclic.Task),
    (started now js l).Perm (l ++ js.map fun j => ⟨j.id, now + j.delay⟩) ∧ (Cyclic.Sorted l → Cyclic.Sorted (started now js l))
  | [], l => by simp [started]
  | j :: js, l => by
    obtain ⟨h1, h2⟩ := started_spec now js (Cyclic.insert ⟨j.id, now + j.delay⟩ l)
    refine ⟨?_, fun h => h2 (h.insert _)⟩
    show (started now js (Cyclic.insert ⟨j.id, now + j.delay⟩ l)).Perm _
    refine h1.trans (((Cyclic.insert_perm _ _).append_right _).trans ?_)
    exact List.perm_middle.symm

/-- Different ids: one task each. -/
theorem started_single (now : Int) {js : List (Job δ H)} (hids : (js.map (·.id)).Nodup) {j : Job δ H} (hj : j ∈ js) :
    (started now js []).filter (fun z => decide (z.id = j.id)) = [⟨j.id, now + j.delay⟩] := by
  have hp := ((started_spec now js []).1.filter fun z => decide (z.id = j.id))
  have key : ∀ l : List (Job δ H), (l.map (·.id)).Nodup → j ∈ l →
      (l.map fun j => (⟨j.id, now + j.delay⟩ : Cyclic.Task)).filter (fun z => decide (z.id = j.id)) = [⟨j.id, now + j.delay⟩] := by
    intro l
    induction l with
    | nil => intro _ h; cases h
    | cons i l ih =>
      intro hn hm
      obtain ⟨hn1, hn2⟩ := List.nodup_cons.mp hn
      rw [List.map_cons, List.filter_cons]
      rcases List.mem_cons.mp hm with rfl | hm
      · simp only [decide_true, if_true, List.cons.injEq, true_and]
        rw [List.filter_eq_nil_iff]
        intro z hz
        obtain ⟨i, hi, rfl⟩ := List.mem_map.mp hz
        simp only [decide_eq_true_eq]
        exact fun he => hn1 (List.mem_map.mpr ⟨i, hi, he⟩)
      · have : i.id ≠ j.id := fun he => hn1 (List.mem_map.mpr ⟨j, hm, he.symm⟩)
        simp only [this, decide_false, Bool.false_eq_true, if_false]
        exact ih hn2 hm
  rw [List.nil_append, key js hids hj] at hp
  exact List.perm_singleton.mp hp

end ES
end Spine
