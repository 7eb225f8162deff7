import Verif.Spec.History
import Verif.Proofs.Pipeline
/-!
# The invariant of the event system
-/

namespace Spine

theorem bind_ok {α β : Type _} {x : Res α} {f : α → Res β} {y : β} : (x >>= f) = .ok y ↔ ∃ a, x = .ok a ∧ f a = .ok y := by
  cases x <;> simp

theorem spnAssert_ok {b : Build} {c : Bool} {u : Unit} (h : spnAssert b c = .ok u) : b = .release ∨ c = true := by
  cases b
  · cases c
    · cases h
    · exact .inr rfl
  · exact .inl rfl

theorem deref_ok {ω : Type} {x : Option ω} {o : ω} (h : deref x = .ok o) : x = some o := by
  cases x
  · cases h
  · rw [deref] at h; rw [Except.ok.inj h]

variable {ω δ H : Type} [DecidableEq ω]

set_option linter.unusedSectionVars false

theorem reschedule_ok {b : Build} {e e' : Event δ} {now : Int} (h : e.reschedule b 0 now = .ok e') :
    e'.timeFromNow = e.timeFromNow ∧ (b = .release ∨ 0 < e.timeFromNow) := by
  have hz : near 0 = 0 := near_zero
  have h2 : KTime.ne .milli .milli 0 0 = .ok false := by
    simp only [KTime.ne, KTime.eq, fromOther_mid .milli (show |(0 : Int)| ≤ 2 ^ 62 by norm_num), res_bind_ok, res_pure, hz]
    rfl
  unfold Event.reschedule at h
  simp only [h2, res_bind_ok, Bool.false_eq_true, if_false] at h
  rw [msGt_near (by norm_num), hz, res_bind_ok, bind_ok] at h
  obtain ⟨u, h3, h4⟩ := h
  rw [bind_ok] at h4
  obtain ⟨t, _, h5⟩ := h4
  rw [res_pure] at h5
  refine ⟨by rw [← Except.ok.inj h5], ?_⟩
  rcases spnAssert_ok h3 with h | h
  · exact .inl h
  · right; simpa using h

namespace Pipe

theorem place_heap {b : Build} {p p' : Pipe ω δ} {o : ω} {i : Option Nat} (h : p.place b o i = .ok p') : p'.heap = p.heap := by
  unfold place at h
  cases i with
  | none =>
    rw [bind_ok] at h
    obtain ⟨v, _, h⟩ := h
    rw [res_pure] at h; rw [← Except.ok.inj h]
  | some i =>
    rw [bind_ok] at h
    obtain ⟨v, _, h⟩ := h
    rw [bind_ok] at h
    obtain ⟨_, _, h⟩ := h
    rw [res_pure] at h; rw [← Except.ok.inj h]

/-- What a successful `push` tells us without knowing anything about the pipe. -/
theorem push_ok {b : Build} {p p' : Pipe ω δ} {x : Option ω} {now : Int} {reads : Nat → Int × Int} (h : p.push b x now reads = .ok p') :
    ∃ o, x = some o ∧ (p'.heap o).timeFromNow = (p.heap o).timeFromNow ∧ (b = .release ∨ 0 < (p.heap o).timeFromNow) := by
  unfold push at h
  rw [bind_ok] at h
  obtain ⟨_, _, h⟩ := h
  rw [bind_ok] at h
  obtain ⟨o, ho, h⟩ := h
  rw [bind_ok] at h
  obtain ⟨e, he, h⟩ := h
  simp only [bind_ok] at h
  obtain ⟨i, _, h⟩ := h
  obtain ⟨h1, h2⟩ := reschedule_ok he
  refine ⟨o, deref_ok ho, ?_, h2⟩
  rw [place_heap h, store_same, h1]

theorem Rep.refs {n : Nat} {p : Pipe ω δ} {q : List (Item ω)} {now : Int} (h : Rep n p q now) (o : ω) :
    slotRefs o p.vec.log = if o ∈ q.map (·.obj) then 1 else 0 := by
  obtain ⟨pre, post, log, hv, _, _, _, ho⟩ := h.vec
  have h1 := ho (some o) (by simp)
  rw [Pool.slotRefs_eq, hv]
  simp only [Vec.mk']
  rw [h1, Pool.count_beq]
  have hm : (q.map fun x => some x.obj) = (q.map (·.obj)).map some := by simp
  have hn : ((q.map (·.obj)).map some).Nodup := by
    have := h.nodup
    unfold List.Nodup at this ⊢
    rw [List.pairwise_map]
    exact this.imp (fun hne he => hne (Option.some.inj he))
  rw [hm]
  split
  · next hmem => rw [List.Nodup.count hn]; simp only [List.mem_map] at hmem; simp [hmem]
  · next hmem => rw [List.Nodup.count hn]; simp only [List.mem_map] at hmem; simp [hmem]

end Pipe

namespace ES

variable {b : Build} {beh : Behaviour ω δ H} {objs : List ω} {s s' : ES ω δ H} {q : List (Item ω)}

/-- How many owners an event object has besides the pool. -/
def owners (s : ES ω δ H) (q : List (Item ω)) (o : ω) : Nat :=
  (if o ∈ q.map (·.obj) then 1 else 0) + s.store.outside o + s.locals.count o

/-- The invariant: the pipeline holds the agenda `q`, and the past was in order. -/
structure Inv (objs : List ω) (s : ES ω δ H) (q : List (Item ω)) : Prop where
  store : Pool.Rep s.cfg.eventsCap s.store objs
  full : objs.length = s.cfg.eventsCap
  small : s.cfg.eventsCap < 2 ^ 16
  pipe : Pipe.Rep s.cfg.eventsCap s.pipe q s.clock
  single : ∀ o, owners s q o ≤ if o ∈ objs then 1 else 0
  before : q.Pairwise Item.Before
  arrival : ∀ x ∈ q, (s.pipe.heap x.obj).seq = x.arrival ∧ x.arrival < s.count
  clock : 0 ≤ s.clock
  keys : (firedKeys s.trace ++ q.map fun x => (s.pipe.heap x.obj).key).Perm (scheduledKeys s.trace)
  seqs : (scheduledKeys s.trace).map (·.seq) = (List.range s.count).reverse
  ontime : ∀ e t n, Entry.fired e t n ∈ s.trace → e.timer.future ≤ near t
  order : ∀ x ∈ q, ∀ d t n e t', [Entry.fired d t n, .scheduled e t'].Sublist s.trace → e.seq = x.arrival →
    d.Before (s.pipe.heap x.obj)
  fifo : ∀ d t n c t' n' e t'', [Entry.fired d t n, .fired c t' n', .scheduled e t''].Sublist s.trace → e.seq = d.seq → c.Before d

/-- The vectors of handlers hold what was attached, as much as there is room for, from the first slot on. -/
structure MapRep (s : ES ω δ H) : Prop where
  length : s.map.length = s.cfg.eventsCount
  small : s.cfg.handlerCap < sizeMod
  slot : ∀ id v, s.map[id]? = some v → ∃ post log, v = Vec.mk' [] ((attached s.trace id).take s.cfg.handlerCap) post log ∧
    ((attached s.trace id).take s.cfg.handlerCap).length + post.length = s.cfg.handlerCap

theorem MapRep.same (h : MapRep s) (hm : s'.map = s.map) (hc : s'.cfg = s.cfg) (ht : ∀ id, attached s'.trace id = attached s.trace id) :
    MapRep s' :=
  ⟨by rw [hm, hc]; exact h.length, by rw [hc]; exact h.small, fun id v hv => by rw [ht, hc]; exact h.slot id v (by rw [← hm]; exact hv)⟩

/-- How a state develops. -/
structure Grows (s s' : ES ω δ H) : Prop where
  clock : s.clock ≤ s'.clock
  trace : ∃ l, s'.trace = l ++ s.trace
  locals : s'.locals = s.locals
  cfg : s'.cfg = s.cfg
  map : MapRep s → MapRep s'

theorem Grows.refl (s : ES ω δ H) : Grows s s := ⟨le_refl _, ⟨[], rfl⟩, rfl, rfl, fun h => h⟩

theorem Grows.trans {s1 s2 s3 : ES ω δ H} (h : Grows s1 s2) (h' : Grows s2 s3) : Grows s1 s3 := by
  obtain ⟨l, hl⟩ := h.trace
  obtain ⟨l', hl'⟩ := h'.trace
  exact ⟨h.clock.trans h'.clock, ⟨l' ++ l, by rw [hl', hl, List.append_assoc]⟩, h'.locals.trans h.locals, h'.cfg.trans h.cfg,
    fun hm => h'.map (h.map hm)⟩

theorem tame_of {s s' : ES ω δ H} (hc : s.clock ≤ s'.clock) (ht : ∃ l, s'.trace = l ++ s.trace) (h : Tame s') : Tame s := by
  obtain ⟨l, hl⟩ := ht
  exact ⟨hc.trans h.1, fun e t he => h.2 e t (by rw [hl]; exact List.mem_append_right _ he)⟩

theorem Grows.tame (h : Grows s s') (ht : Tame s') : Tame s := tame_of h.clock h.trace ht

/-! ### Obtaining events -/

theorem Inv.pool (h : Inv objs s q) (o : ω) : s.pool.outside o = owners s q o := by
  simp only [ES.pool, owners, h.pipe.refs]
  split <;> rfl

theorem Inv.poolRep (h : Inv objs s q) : Pool.Rep s.cfg.eventsCap s.pool objs := h.store.withOutside _

/-- What `fetch` does to the state: the search position of the pool moves, and the object it found is initialised. -/
structure Fetched (s : ES ω δ H) (id : Nat) (delay : Int) (data : δ) (x : Option ω) (s' : ES ω δ H) : Prop where
  store : s'.store.outside = s.store.outside
  vec : s'.pipe.vec = s.pipe.vec
  heap : s'.pipe.heap = match x with
    | some o => (s.pipe.store o { s.pipe.heap o with id, data, timeFromNow := delay }).heap
    | none => s.pipe.heap
  locals : s'.locals = s.locals
  cfg : s'.cfg = s.cfg
  map : s'.map = s.map
  clock : s'.clock = s.clock
  trace : s'.trace = s.trace
  count : s'.count = s.count

theorem Fetched.grows {id : Nat} {delay : Int} {data : δ} {x : Option ω} (h : Fetched s id delay data x s') : Grows s s' :=
  ⟨le_of_eq h.clock.symm, ⟨[], h.trace⟩, h.locals, h.cfg, fun hm => hm.same h.map h.cfg (fun _ => by rw [h.trace])⟩

theorem fetch_grows {id : Nat} {delay : Int} {data : δ} {x : Option ω} (h : s.fetch b id delay data = .ok (x, s')) :
    Fetched s id delay data x s' := by
  unfold fetch at h
  rw [bind_ok] at h
  obtain ⟨⟨y, p⟩, _, h⟩ := h
  simp only [bind_ok] at h
  obtain ⟨_, _, h⟩ := h
  cases y with
  | none => cases h; exact ⟨rfl, rfl, rfl, rfl, rfl, rfl, rfl, rfl, rfl⟩
  | some o => cases h; exact ⟨rfl, rfl, rfl, rfl, rfl, rfl, rfl, rfl, rfl⟩

/-- Changing objects which are not pending, and the bookkeeping of the pool. -/
theorem Inv.change (h : Inv objs s q) (hs : Pool.Rep s'.cfg.eventsCap s'.store objs) (hcfg : s'.cfg = s.cfg)
    (hvec : s'.pipe.vec = s.pipe.vec) (hheap : ∀ x ∈ q, s'.pipe.heap x.obj = s.pipe.heap x.obj)
    (hsingle : ∀ o, owners s' q o ≤ if o ∈ objs then 1 else 0) (hclock : s'.clock = s.clock) (htrace : s'.trace = s.trace)
    (hcount : s'.count = s.count) : Inv objs s' q := by
  have hp : Pipe.Rep s.cfg.eventsCap s'.pipe q s.clock := by
    have := h.pipe.heap s'.pipe.heap (fun x hx => by rw [hheap x hx]; exact ⟨rfl, .inl⟩)
    rw [← hvec] at this; exact this
  have hk : (q.map fun x => (s'.pipe.heap x.obj).key) = q.map fun x => (s.pipe.heap x.obj).key :=
    List.map_congr_left (fun x hx => by rw [hheap x hx])
  refine ⟨hs, by rw [hcfg]; exact h.full, by rw [hcfg]; exact h.small, by rw [hcfg, hclock]; exact hp, hsingle, h.before, ?_,
    by rw [hclock]; exact h.clock, by rw [hk, htrace]; exact h.keys, by rw [htrace, hcount]; exact h.seqs,
    by rw [htrace]; exact h.ontime, ?_, by rw [htrace]; exact h.fifo⟩
  · intro x hx; rw [hheap x hx, hcount]; exact h.arrival x hx
  · intro x hx; rw [hheap x hx, htrace]; exact h.order x hx

theorem Inv.fetched (h : Inv objs s q) {id : Nat} {delay : Int} {data : δ} {x : Option ω} (hf : Fetched s id delay data x s')
    (hs : Pool.Rep s.cfg.eventsCap s'.store objs) (hx : ∀ o, x = some o → owners s q o = 0) : Inv objs s' q := by
  refine h.change (by rw [hf.cfg]; exact hs) hf.cfg hf.vec ?_ ?_ hf.clock hf.trace hf.count
  · intro y hy
    rw [hf.heap]
    cases x with
    | none => rfl
    | some o =>
      refine Pipe.store_other _ _ ?_
      rintro rfl
      have := hx _ rfl
      have hm : y.obj ∈ q.map (·.obj) := List.mem_map_of_mem hy
      simp only [owners, if_pos hm] at this; omega
  · intro o
    have := h.single o
    simpa only [owners, hf.store, hf.locals] using this

/-- `event()` finds an object without owners, if there is one. -/
theorem fetch_spec (h : Inv objs s q) (id : Nat) (delay : Int) (data : δ) :
    (∃ o s', s.fetch b id delay data = .ok (some o, s') ∧ o ∈ objs ∧ owners s q o = 0 ∧ Inv objs s' q) ∨
    ((∀ o ∈ objs, owners s q o ≠ 0) ∧ match b with
      | .debug => s.fetch b id delay data = .error .assertFailed
      | .release => ∃ s', s.fetch b id delay data = .ok (none, s') ∧ Inv objs s' q) := by
  obtain ⟨r, p', h1, h2, h3⟩ := Pool.acquire_spec (b := b) h.poolRep (by rw [h.full]; exact h.small) (.inr h.full)
    (s.store.vec.size + 1) (by rw [h.store.size]; omega)
  cases r with
  | some o =>
    left
    obtain ⟨h4, h5, _⟩ := h3
    rw [h.pool] at h5
    have hf : ∃ s', s.fetch b id delay data = .ok (some o, s') ∧ s'.store = { p' with outside := s.store.outside } := by
      simp only [fetch, h1, res_bind_ok, Option.isSome_some, spnAssert_true, res_pure]; exact ⟨_, rfl, rfl⟩
    obtain ⟨s', hf, hst⟩ := hf
    refine ⟨o, _, hf, h4, h5, h.fetched (fetch_grows hf) (by rw [hst]; exact h2.withOutside _) ?_⟩
    rintro _ ⟨⟩; exact h5
  | none =>
    right
    obtain ⟨h4, _⟩ := h3
    refine ⟨fun o ho => by rw [← h.pool]; exact h4 o ho, ?_⟩
    cases b with
    | debug => simp only [fetch, h1, res_bind_ok, Option.isSome_none, spnAssert_debug_false, res_bind_error]
    | release =>
      have hf : ∃ s', s.fetch .release id delay data = .ok (none, s') ∧ s'.store = { p' with outside := s.store.outside } := by
        simp only [fetch, h1, res_bind_ok, spnAssert_release, res_pure]; exact ⟨_, rfl, rfl⟩
      obtain ⟨s', hf, hst⟩ := hf
      exact ⟨_, hf, h.fetched (fetch_grows hf) (by rw [hst]; exact h2.withOutside _) (by simp)⟩

theorem fetch_inv (h : Inv objs s q) {id : Nat} {delay : Int} {data : δ} {x : Option ω} (hf : s.fetch b id delay data = .ok (x, s')) :
    Inv objs s' q ∧ ∀ o, x = some o → o ∈ objs ∧ owners s' q o = 0 := by
  have hF := fetch_grows hf
  rcases fetch_spec (b := b) h id delay data with ⟨o, s1, h1, h2, h3, h4⟩ | ⟨h1, h2⟩
  · rw [h1] at hf; cases hf
    refine ⟨h4, ?_⟩
    rintro _ ⟨⟩
    refine ⟨h2, ?_⟩
    simpa only [owners, hF.store, hF.locals] using h3
  · cases b with
    | debug => simp only at h2; rw [h2] at hf; cases hf
    | release =>
      obtain ⟨s1, h3, h4⟩ := h2
      rw [h3] at hf; cases hf
      exact ⟨h4, by simp⟩

/-! ### Scheduling events -/

theorem stamp_some (o : ω) : s.stamp (some o) = { s with pipe := s.pipe.store o { s.pipe.heap o with seq := s.count } } := rfl

/-- What `enqueue` does to the state. -/
theorem enqueue_ok {x : Option ω} (h : s.enqueue b x = .ok s') :
    ∃ o pipe, x = some o ∧ (s.stamp (some o)).pipe.push b (some o) s.clock (fun _ => (s.clock, s.clock)) = .ok pipe ∧
      s' = { s with pipe, count := s.count + 1, trace := .scheduled (pipe.heap o) s.clock :: s.trace } := by
  unfold enqueue at h
  simp only [bind_ok] at h
  obtain ⟨pipe, h1, o, h2, h3⟩ := h
  obtain rfl := deref_ok h2
  exact ⟨o, pipe, rfl, h1, by rw [res_pure] at h3; rw [← Except.ok.inj h3]; rfl⟩

theorem enqueue_grows {x : Option ω} (h : s.enqueue b x = .ok s') : Grows s s' := by
  obtain ⟨o, pipe, rfl, _, rfl⟩ := enqueue_ok h
  exact ⟨le_refl _, ⟨[_], rfl⟩, rfl, rfl, fun hm => hm.same rfl rfl (fun _ => rfl)⟩

theorem mem_scheduledKeys {e : Event δ} {t : Int} {l : List (Entry δ H)} (h : Entry.scheduled e t ∈ l) : e.key ∈ scheduledKeys l := by
  induction l with
  | nil => simp at h
  | cons a l ih =>
    rcases List.mem_cons.mp h with rfl | h'
    · simp [scheduledKeys]
    · have := ih h'
      cases a <;> simp [scheduledKeys, this]

theorem mem_scheduled {k : Key δ} {l : List (Entry δ H)} (h : k ∈ scheduledKeys l) : ∃ e t, Entry.scheduled e t ∈ l ∧ e.key = k := by
  induction l with
  | nil => simp [scheduledKeys] at h
  | cons a l ih =>
    cases a with
    | scheduled e t =>
      simp only [scheduledKeys, List.mem_cons] at h
      rcases h with rfl | h
      · exact ⟨e, t, by simp, rfl⟩
      · obtain ⟨e', t', h1, h2⟩ := ih h; exact ⟨e', t', by simp [h1], h2⟩
    | fired e t d => obtain ⟨e', t', h1, h2⟩ := ih h; exact ⟨e', t', by simp [h1], h2⟩
    | attached i h' => obtain ⟨e', t', h1, h2⟩ := ih h; exact ⟨e', t', by simp [h1], h2⟩
    | called h' e d t => obtain ⟨e', t', h1, h2⟩ := ih h; exact ⟨e', t', by simp [h1], h2⟩
    | slept t => obtain ⟨e', t', h1, h2⟩ := ih h; exact ⟨e', t', by simp [h1], h2⟩

theorem Inv.seq_lt (h : Inv objs s q) {e : Event δ} {t : Int} (he : Entry.scheduled e t ∈ s.trace) : e.seq < s.count := by
  have h1 : e.key.seq ∈ (scheduledKeys s.trace).map (·.seq) := List.mem_map_of_mem (mem_scheduledKeys he)
  rw [h.seqs, List.mem_reverse, List.mem_range] at h1
  exact h1

/-- A push with room, of an object nobody owns. -/
theorem Inv.room (h : Inv objs s q) {o : ω} (ho : o ∈ objs) (hfree : o ∉ q.map (·.obj)) : q.length < s.cfg.eventsCap := by
  have hsub : (o :: q.map (·.obj)) ⊆ objs := by
    intro x hx
    rcases List.mem_cons.mp hx with rfl | hx
    · exact ho
    · by_contra hc
      have := h.single x
      simp only [owners, if_pos hx, if_neg hc] at this; omega
  have hn : (o :: q.map (·.obj)).Nodup := List.nodup_cons.mpr ⟨hfree, h.pipe.nodup⟩
  have := (List.subperm_of_subset hn hsub).length_le
  simp only [List.length_cons, List.length_map, h.full] at this
  omega

/-- The state after the object `o` was put into the pipeline. -/
def queued (s : ES ω δ H) (o : ω) (vec : Vec (Option ω)) : ES ω δ H :=
  let e := { s.pipe.heap o with seq := s.count, timer := ⟨s.clock + (s.pipe.heap o).timeFromNow, false⟩ }
  { s with pipe := { vec, heap := fun x => if x = o then e else s.pipe.heap x }, count := s.count + 1
           trace := .scheduled e s.clock :: s.trace }

theorem enqueue_spec (h : Inv objs s q) {o : ω} (ho : o ∈ objs) (hown : owners s q o = 0) (hc : s.clock ≤ 2 ^ 40)
    (hd : 0 ≤ (s.pipe.heap o).timeFromNow) (hd' : (s.pipe.heap o).timeFromNow ≤ 2 ^ 23) (hb : b = .release ∨ 0 < (s.pipe.heap o).timeFromNow) :
    ∃ v', s.enqueue b (some o) = .ok (s.queued o v') ∧ Inv objs (s.queued o v') (Agenda.insert ⟨o, s.clock + (s.pipe.heap o).timeFromNow, s.count⟩ q) := by
  have hq : o ∉ q.map (·.obj) := fun hm => by simp only [owners, if_pos hm] at hown; omega
  have hne : ∀ x ∈ q, x.obj ≠ o := fun x hx he => hq (he ▸ List.mem_map_of_mem hx)
  have hrep : Pipe.Rep s.cfg.eventsCap (s.stamp (some o)).pipe q s.clock := by
    rw [stamp_some]
    exact h.pipe.heap _ (fun x hx => by simp only [hne x hx, if_false, true_and]; exact fun he => .inl he)
  have hheap : (s.stamp (some o)).pipe.heap o = { s.pipe.heap o with seq := s.count } := by rw [stamp_some]; simp
  obtain ⟨v', h1, h2⟩ := Pipe.push_spec (b := b) (o := o) s.count hrep h.clock hc (h.room ho hq) hq (by rw [hheap]; exact hd)
    (by rw [hheap]; exact hd') (by rw [hheap]; exact hb)
  have hsk : (fun x => ((s.stamp (some o)).pipe.store o { (s.stamp (some o)).pipe.heap o with
      timer := ⟨s.clock + ((s.stamp (some o)).pipe.heap o).timeFromNow, false⟩ }).heap x)
      = fun x => if x = o then { s.pipe.heap o with seq := s.count, timer := ⟨s.clock + (s.pipe.heap o).timeFromNow, false⟩ } else s.pipe.heap x := by
    funext x
    by_cases hx : x = o
    · subst hx; simp [hheap]
    · rw [Pipe.store_other _ _ hx, stamp_some]; simp [Pipe.store_other _ _ hx, hx]
  have hsk' : ((s.stamp (some o)).pipe.store o { (s.stamp (some o)).pipe.heap o with
      timer := ⟨s.clock + ((s.stamp (some o)).pipe.heap o).timeFromNow, false⟩ }).heap = _ := hsk
  rw [hsk'] at h1
  rw [hsk', hheap] at h2
  simp only at h1 h2
  set e : Event δ := { s.pipe.heap o with seq := s.count, timer := ⟨s.clock + (s.pipe.heap o).timeFromNow, false⟩ } with he
  refine ⟨v', ?_⟩
  have hqd : s.queued o v' = { s with
      pipe := { vec := v', heap := fun x => if x = o then e else s.pipe.heap x }, count := s.count + 1
      trace := .scheduled e s.clock :: s.trace } := rfl
  rw [hqd]
  have hres : s.enqueue b (some o) = .ok { s with
      pipe := { vec := v', heap := fun x => if x = o then e else s.pipe.heap x }, count := s.count + 1
      trace := .scheduled e s.clock :: s.trace } := by
    unfold enqueue
    simp only [show (s.stamp (some o)).clock = s.clock from rfl]
    rw [h1, res_bind_ok, deref, res_bind_ok, res_pure]
    simp only [if_true]; rfl
  have heseq : e.seq = s.count := rfl
  clear hqd
  clear_value e
  refine ⟨hres, ?_⟩
  refine ⟨h.store, h.full, h.small, h2, ?_, ?_, ?_, h.clock, ?_, ?_, ?_, ?_, ?_⟩
  · intro x
    have hx := h.single x
    have hperm := ((Pipe.insert_perm ⟨o, s.clock + (s.pipe.heap o).timeFromNow, s.count⟩ q).map (·.obj)).mem_iff (a := x)
    simp only [List.map_cons, List.mem_cons] at hperm
    simp only [owners, hperm] at hx hown ⊢
    by_cases hxo : x = o
    · subst hxo
      simp only [hq, if_false] at hown
      simp only [true_or, if_true, ho]; omega
    · simpa only [hxo, false_or] using hx
  · refine Pipe.insert_before h.before (fun y hy => (h.arrival y hy).2)
  · intro x hx
    rcases Pipe.mem_insert.mp hx with rfl | hx
    · simp [heseq]
    · simp only [hne x hx, if_false]
      exact ⟨(h.arrival x hx).1, Nat.lt_succ_of_lt (h.arrival x hx).2⟩
  · simp only [firedKeys, scheduledKeys]
    refine (List.Perm.append_left _ ((Pipe.insert_perm _ q).map _)).trans ?_
    rw [List.map_cons]
    refine List.perm_middle.trans ?_
    simp only [if_true]
    refine List.Perm.cons _ ?_
    have : (q.map fun x => (if x.obj = o then e else s.pipe.heap x.obj).key) = q.map fun x => (s.pipe.heap x.obj).key :=
      List.map_congr_left (fun x hx => by rw [if_neg (hne x hx)])
    rw [this]; exact h.keys
  · simp only [scheduledKeys, List.map_cons]
    rw [h.seqs, List.range_succ, List.reverse_append]
    simp [Event.key, heseq]
  · intro d t n hm
    simp only [List.mem_cons, reduceCtorEq, false_or] at hm
    exact h.ontime d t n hm
  · intro x hx d t n c t' hsub hseq
    have hsub' : [Entry.fired d t n, .scheduled c t'].Sublist s.trace := by
      rcases List.sublist_cons_iff.mp hsub with h | ⟨r, h, _⟩
      · exact h
      · cases h
    rcases Pipe.mem_insert.mp hx with rfl | hx
    · exfalso
      have := h.seq_lt (hsub'.subset (by simp) : Entry.scheduled c t' ∈ s.trace)
      simp only at hseq; omega
    · simp only [hne x hx, if_false]
      exact h.order x hx d t n c t' hsub' hseq
  · intro d t n c t' n' f t'' hsub hseq
    refine h.fifo d t n c t' n' f t'' ?_ hseq
    rcases List.sublist_cons_iff.mp hsub with h | ⟨r, h, _⟩
    · exact h
    · cases h

theorem enqueue_inv (h : Inv objs s q) {o : ω} (ho : o ∈ objs) (hown : owners s q o = 0) (he : s.enqueue b (some o) = .ok s')
    (ht : Tame s') : ∃ q', Inv objs s' q' := by
  obtain ⟨o', pipe, ho', hp, rfl⟩ := enqueue_ok he
  obtain rfl := Option.some.inj ho'
  obtain ⟨o', ho', h1, h2⟩ := Pipe.push_ok hp
  obtain rfl := Option.some.inj ho'
  have h3 := ht.2 (pipe.heap o) s.clock (by simp)
  have hh : ((s.stamp (some o)).pipe.heap o).timeFromNow = (s.pipe.heap o).timeFromNow := by rw [stamp_some]; simp
  rw [h1, hh] at h3
  rw [hh] at h2
  obtain ⟨s1, h4, h5⟩ := enqueue_spec (b := b) h ho hown ht.1 h3.1 h3.2 h2
  rw [he] at h4
  rw [Except.ok.inj h4]
  exact ⟨_, h5⟩

/-! ### Programs -/

/-- A computation that keeps the invariant. -/
def Keeps (objs : List ω) (s s' : ES ω δ H) : Prop :=
  Grows s s' ∧ (Tame s' → ∀ q, Inv objs s q → ∃ q', Inv objs s' q')

theorem Keeps.refl (s : ES ω δ H) : Keeps objs s s := ⟨Grows.refl s, fun _ q h => ⟨q, h⟩⟩

theorem Keeps.trans {s1 s2 s3 : ES ω δ H} (h : Keeps objs s1 s2) (h' : Keeps objs s2 s3) : Keeps objs s1 s3 := by
  refine ⟨h.1.trans h'.1, fun ht q hq => ?_⟩
  obtain ⟨q', hq'⟩ := h.2 (h'.1.tame ht) q hq
  exact h'.2 ht q' hq'

theorem schedule_keeps {id : Nat} {delay : Int} {data : δ} (h : s.schedule b id delay data = .ok s') : Keeps objs s s' := by
  unfold schedule at h
  rw [bind_ok] at h
  obtain ⟨⟨x, s1⟩, h1, h2⟩ := h
  have hf := fetch_grows h1
  refine ⟨hf.grows.trans (enqueue_grows h2), fun ht q hq => ?_⟩
  obtain ⟨h3, h4⟩ := fetch_inv hq h1
  obtain ⟨o, _, rfl, _⟩ := enqueue_ok h2
  obtain ⟨h5, h6⟩ := h4 o rfl
  exact enqueue_inv h3 h5 h6 h2 ht

theorem event_keeps {id : Nat} {delay : Int} {data : δ} {x : Option ω} (h : s.event b id delay data = .ok (x, s')) :
    Keeps objs s s' := by
  unfold event at h
  rw [bind_ok] at h
  obtain ⟨⟨y, s1⟩, h1, h2⟩ := h
  cases h2
  have hf := fetch_grows h1
  refine ⟨hf.grows.trans ⟨le_refl _, ⟨[], rfl⟩, rfl, rfl, fun hm => hm.same rfl rfl (fun _ => rfl)⟩, fun _ q hq => ⟨q, ?_⟩⟩
  obtain ⟨h3, h4⟩ := fetch_inv hq h1
  cases x with
  | none => exact h3
  | some o =>
    obtain ⟨h5, h6⟩ := h4 o rfl
    refine h3.change (h3.store.withOutside _) rfl rfl (fun _ _ => rfl) ?_ rfl rfl rfl
    intro o'
    have h7 := h3.single o'
    simp only [owners, Pool.gain] at h6 h7 ⊢
    by_cases he : o' = o
    · subst he; simp only [if_true, if_pos h5]; omega
    · simpa only [he, if_false] using h7

theorem give_keeps {o : ω} (h : s.give o = .ok s') :
    Grows s s' ∧ (∀ q, Inv objs s q → Inv objs s' q ∧ o ∈ objs ∧ owners s' q o = 0) := by
  unfold give at h
  split at h
  · cases h
  · next hne =>
    cases h
    refine ⟨⟨le_refl _, ⟨[], rfl⟩, rfl, rfl, fun hm => hm.same rfl rfl (fun _ => rfl)⟩, fun q hq => ?_⟩
    have hso := hq.single o
    have hmem : o ∈ objs := by
      by_contra hc
      simp only [owners, if_neg hc] at hso; omega
    simp only [owners, if_pos hmem] at hso
    refine ⟨hq.change (hq.store.withOutside _) rfl rfl (fun _ _ => rfl) ?_ rfl rfl rfl, hmem, ?_⟩
    · intro o'
      have h7 := hq.single o'
      simp only [owners, Pool.release] at h7 ⊢
      by_cases he : o' = o
      · subst he; simp only [if_true] at h7 ⊢; omega
      · simpa only [he, if_false] using h7
    · simp only [owners, Pool.release, if_true]; omega

/-- A call of `trigger(const Event&)` that keeps the invariant. -/
def Good (objs : List ω) (call : ES ω δ H → Event δ → Res (ES ω δ H)) : Prop :=
  ∀ s e s', call s e = .ok s' → Keeps objs s s'

theorem Inv.hold (h : Inv objs s q) {o : ω} (ho : o ∈ objs) (hown : owners s q o = 0) : Inv objs (s.hold o) q := by
  refine h.change h.store rfl rfl (fun _ _ => rfl) ?_ rfl rfl rfl
  intro o'
  have h7 := h.single o'
  simp only [owners, ES.hold, List.count_cons] at h7 hown ⊢
  by_cases he : o = o'
  · subst he; simp only [beq_self_eq_true, if_true, if_pos ho]; omega
  · simp only [beq_iff_eq, he, if_false]; omega

theorem Inv.unhold (h : Inv objs s q) (o : ω) : Inv objs (s.unhold o) q := by
  refine h.change h.store rfl rfl (fun _ _ => rfl) ?_ rfl rfl rfl
  intro o'
  have h7 := h.single o'
  have h8 : (s.locals.erase o).count o' ≤ s.locals.count o' := (List.erase_sublist).count_le o'
  simp only [owners, ES.unhold] at h7 ⊢; omega

theorem triggerId_keeps {call : ES ω δ H → Event δ → Res (ES ω δ H)} (hc : Good objs call) {id : Nat} {data : δ}
    (h : s.triggerId b call id data = .ok s') : Keeps objs s s' := by
  unfold triggerId at h
  rw [bind_ok] at h
  obtain ⟨⟨x, s1⟩, h1, h⟩ := h
  simp only [bind_ok] at h
  obtain ⟨_, _, o, h2, s2, h3, h4⟩ := h
  obtain rfl := deref_ok h2
  rw [res_pure] at h4
  obtain rfl := Except.ok.inj h4
  have hf := fetch_grows h1
  obtain ⟨hg, hi⟩ := hc _ _ _ h3
  have hl : s2.locals.erase o = s1.locals := by rw [hg.locals]; simp [ES.hold]
  refine ⟨hf.grows.trans ⟨hg.clock, hg.trace, hl, hg.cfg,
    fun hm => (hg.map (hm.same rfl rfl (fun _ => rfl))).same rfl rfl (fun _ => rfl)⟩, fun ht q hq => ?_⟩
  obtain ⟨h5, h6⟩ := fetch_inv hq h1
  obtain ⟨h7, h8⟩ := h6 o rfl
  obtain ⟨q', h9⟩ := hi ht q (h5.hold h7 h8)
  exact ⟨q', h9.unhold o⟩

/-- Entries that do not concern the pipeline. -/
theorem Inv.note (h : Inv objs s q) {a : Entry δ H} (hf : ∀ e t d, a ≠ .fired e t d) (hs : ∀ e t, a ≠ .scheduled e t) :
    Inv objs { s with trace := a :: s.trace } q := by
  have hk : firedKeys (a :: s.trace) = firedKeys s.trace := by
    cases a with
    | fired e t d => exact absurd rfl (hf e t d)
    | _ => rfl
  have hk' : scheduledKeys (a :: s.trace) = scheduledKeys s.trace := by
    cases a with
    | scheduled e t => exact absurd rfl (hs e t)
    | _ => rfl
  have skip : ∀ {x : Entry δ H} {l : List (Entry δ H)}, x ≠ a → (x :: l).Sublist (a :: s.trace) → (x :: l).Sublist s.trace := by
    intro x l hne hsub
    rcases List.sublist_cons_iff.mp hsub with h | ⟨r, h, _⟩
    · exact h
    · exact absurd (List.cons.inj h).1 hne
  refine { h with keys := by simp only [hk, hk']; exact h.keys, seqs := by simp only [hk']; exact h.seqs, ontime := ?_, order := ?_, fifo := ?_ }
  · intro e' t' n hm
    rcases List.mem_cons.mp hm with hm | hm
    · exact absurd hm.symm (hf _ _ _)
    · exact h.ontime e' t' n hm
  · intro y hy d' t' n e' t'' hsub
    exact h.order y hy d' t' n e' t'' (skip (Ne.symm (hf _ _ _)) hsub)
  · intro d' t' n c t'' n' e' t3 hsub
    exact h.fifo d' t' n c t'' n' e' t3 (skip (Ne.symm (hf _ _ _)) hsub)

/-- What `attach` does to the vectors of handlers. -/
theorem attach_map {id : Nat} {x : Option H} (h : s.attach b id x = .ok s') (hm : MapRep s) : MapRep s' := by
  unfold attach at h
  simp only [bind_ok] at h
  obtain ⟨_, _, _, _, v, hv, _, _, v', hv', h⟩ := h
  rw [res_pure] at h
  rw [← Except.ok.inj h]
  have hv1 : s.map[id]? = some v := by
    unfold rd at hv
    cases hx : s.map[id]? with
    | none => rw [hx] at hv; cases hv
    | some w => rw [hx] at hv; rw [Except.ok.inj hv]
  refine ⟨by simp [hm.length], hm.small, fun id' w hw => ?_⟩
  simp only [List.getElem?_set] at hw
  by_cases he : id = id'
  · subst he
    simp only [attached, if_true] at hw ⊢
    split at hw
    · rw [← Option.some.inj hw]
      obtain ⟨post, log, rfl, hl⟩ := hm.slot id v hv1
      cases post with
      | nil =>
        have hfull : s.cfg.handlerCap ≤ (attached s.trace id).length := by
          simp only [List.length_take, List.length_nil] at hl; omega
        rw [List.take_append_of_le_length hfull]
        refine ⟨[], log, ?_, hl⟩
        have hcomp : Vec.compact b (rawPtr H) (Vec.mk' [] ((attached s.trace id).take s.cfg.handlerCap) [] log)
            = .ok (Vec.mk' [] ((attached s.trace id).take s.cfg.handlerCap) [] log) := by
          unfold Vec.compact; rw [if_neg]; simp [Vec.mk']
        simp only [Vec.pushBack, hcomp, res_bind_ok] at hv'
        have hno : ¬ (Vec.mk' [] ((attached s.trace id).take s.cfg.handlerCap) [] log).tail <
            (Vec.mk' [] ((attached s.trace id).take s.cfg.handlerCap) [] log).maxSize := by
          rw [Vec.maxSize_mk']; simp [Vec.mk']
        simp only [hno, if_false, decide_false, res_pure] at hv'
        rw [bind_ok] at hv'
        obtain ⟨_, _, hv'⟩ := hv'
        exact (Except.ok.inj hv').symm
      | cons p post =>
        rw [Vec.pushBack_room] at hv'
        have hroom : (attached s.trace id).length < s.cfg.handlerCap := by
          simp only [List.length_take, List.length_cons] at hl; omega
        rw [List.take_of_length_le (Nat.le_of_lt hroom)] at hv' hl
        rw [List.take_of_length_le (by simp; omega)]
        exact ⟨post, _, (Except.ok.inj hv').symm, by simp only [List.length_append, List.length_cons, List.length_nil] at hl ⊢; omega⟩
    · cases hw
  · rw [if_neg he] at hw
    simp only [attached, if_neg he]
    exact hm.slot id' w hw

theorem attach_keeps {id : Nat} {x : Option H} (h : s.attach b id x = .ok s') :
    Grows s s' ∧ s'.store = s.store ∧ s'.pipe = s.pipe ∧ s'.clock = s.clock ∧ s'.count = s.count ∧ s'.trace = .attached id x :: s.trace ∧
      ∀ q, Inv objs s q → Inv objs s' q := by
  have hm := attach_map (b := b) h
  unfold attach at h
  simp only [bind_ok] at h
  obtain ⟨_, _, _, _, v, _, _, _, v', _, h⟩ := h
  rw [res_pure] at h
  obtain rfl := Except.ok.inj h
  exact ⟨⟨le_refl _, ⟨[_], rfl⟩, rfl, rfl, hm⟩, rfl, rfl, rfl, rfl, rfl, fun q hq =>
    { hq.note (a := .attached id x) (fun _ _ _ => by simp) (fun _ _ => by simp) with }⟩

theorem exec_keeps {call : ES ω δ H → Event δ → Res (ES ω δ H)} {poll : ES ω δ H → Res (ES ω δ H)} (hc : Good objs call)
    (hl : ∀ s s', poll s = .ok s' → Keeps objs s s') (p : Prog ω δ H) :
    ∀ (s s' : ES ω δ H), s.exec b call poll p = .ok s' → Keeps objs s s' := by
  induction p with
  | attach id x k ih =>
    intro s s' h
    rw [exec, bind_ok] at h
    obtain ⟨s1, h1, h2⟩ := h
    obtain ⟨hg, _, _, _, _, _, hi⟩ := attach_keeps (objs := objs) h1
    exact Keeps.trans ⟨hg, fun _ q hq => ⟨q, hi q hq⟩⟩ (ih _ _ h2)
  | loop k ih =>
    intro s s' h
    rw [exec, bind_ok] at h
    obtain ⟨s1, h1, h2⟩ := h
    exact (hl _ _ h1).trans (ih _ _ h2)
  | done => intro s s' h; cases h; exact Keeps.refl s
  | now k ih => intro s s' h; exact ih s.clock s s' h
  | wait ms k ih =>
    intro s s' h
    refine Keeps.trans ?_ (ih _ _ h)
    refine ⟨⟨by simp, ⟨[], rfl⟩, rfl, rfl, fun hm => hm.same rfl rfl (fun _ => rfl)⟩, fun _ q hq => ⟨q, ?_⟩⟩
    exact { hq with pipe := hq.pipe.later (by simp), clock := by have := hq.clock; simp only; omega }
  | schedule id delay data k ih =>
    intro s s' h
    rw [exec, bind_ok] at h
    obtain ⟨s1, h1, h2⟩ := h
    exact (schedule_keeps h1).trans (ih _ _ h2)
  | trigger id data k ih =>
    intro s s' h
    rw [exec, bind_ok] at h
    obtain ⟨s1, h1, h2⟩ := h
    exact (triggerId_keeps hc h1).trans (ih _ _ h2)
  | event id delay data k ih =>
    intro s s' h
    rw [exec, bind_ok] at h
    obtain ⟨⟨x, s1⟩, h1, h2⟩ := h
    exact (event_keeps h1).trans (ih _ _ _ h2)
  | submit o k ih =>
    intro s s' h
    rw [exec, bind_ok] at h
    obtain ⟨s1, h1, h2⟩ := h
    rw [bind_ok] at h2
    obtain ⟨s2, h3, h4⟩ := h2
    refine Keeps.trans ?_ (ih _ _ h4)
    obtain ⟨hg, hi⟩ := give_keeps (objs := objs) h1
    refine ⟨hg.trans (enqueue_grows h3), fun ht q hq => ?_⟩
    obtain ⟨h5, h6, h7⟩ := hi q hq
    exact enqueue_inv h5 h6 h7 h3 ht
  | drop o k ih =>
    intro s s' h
    rw [exec, bind_ok] at h
    obtain ⟨s1, h1, h2⟩ := h
    obtain ⟨hg, hi⟩ := give_keeps (objs := objs) h1
    exact Keeps.trans ⟨hg, fun _ q hq => ⟨q, (hi q hq).1⟩⟩ (ih _ _ h2)

theorem Inv.called (h : Inv objs s q) (x : H) (e : Event δ) (d : Nat) (t : Int) :
    Inv objs { s with trace := .called x e d t :: s.trace } q := h.note (fun _ _ _ => by simp) (fun _ _ => by simp)

theorem Inv.slept (h : Inv objs s q) (ms : Int) : Inv objs (s.sleepFor ms) q := by
  have h1 := h.note (a := .slept ms) (fun _ _ _ => by simp) (fun _ _ => by simp)
  have h2 : s.clock ≤ s.clock + max ms 0 := by omega
  exact { h1 with pipe := h.pipe.later h2, clock := h.clock.trans h2 }

theorem handle_keeps {call : ES ω δ H → Event δ → Res (ES ω δ H)} {poll : ES ω δ H → Res (ES ω δ H)} (hc : Good objs call)
    (hl : ∀ s s', poll s = .ok s' → Keeps objs s s') {depth : Nat} {e : Event δ} {x : Option H}
    (h : s.handle b beh call poll depth e x = .ok s') : Keeps objs s s' := by
  unfold handle at h
  rw [bind_ok] at h
  obtain ⟨y, _, h⟩ := h
  refine Keeps.trans ?_ (exec_keeps hc hl _ _ _ h)
  exact ⟨⟨le_refl _, ⟨[_], rfl⟩, rfl, rfl, fun hm => hm.same rfl rfl (fun _ => rfl)⟩, fun _ q hq => ⟨q, hq.called _ _ _ _⟩⟩

/-- One round of the range-based `for`. -/
theorem visit_step {f : ES ω δ H → Option H → Res (ES ω δ H)} {id n i : Nat} (h : visit f id (n + 1) i s = .ok s') :
    ∃ v x s1, s.map[id]? = some v ∧ v.store[i]? = some x ∧ f s x = .ok s1 ∧ visit f id n (i + 1) s1 = .ok s' := by
  unfold visit at h
  simp only [bind_ok] at h
  obtain ⟨v, hv, x, hx, s1, h1, h2⟩ := h
  refine ⟨v, x, s1, ?_, ?_, h1, h2⟩
  · unfold rd at hv
    cases hy : s.map[id]? with
    | none => rw [hy] at hv; cases hv
    | some w => rw [hy] at hv; rw [Except.ok.inj hv]
  · unfold rd at hx
    cases hy : v.store[i]? with
    | none => rw [hy] at hx; cases hx
    | some w => rw [hy] at hx; rw [Except.ok.inj hx]

theorem visit_keeps {f : ES ω δ H → Option H → Res (ES ω δ H)} (hf : ∀ s x s', f s x = .ok s' → Keeps objs s s') {id : Nat} :
    ∀ (n i : Nat) (s s' : ES ω δ H), visit f id n i s = .ok s' → Keeps objs s s'
  | 0, i, s, s', h => by cases h; exact Keeps.refl s
  | n + 1, i, s, s', h => by
    obtain ⟨_, _, s1, _, _, h1, h2⟩ := visit_step h
    exact (hf _ _ _ h1).trans (visit_keeps hf n (i + 1) s1 s' h2)

/-! ### `loop()` -/

theorem key_same {h h' : ω → Event δ} (hs : Pipe.Same h h') (o : ω) : (h' o).key = (h o).key := by
  obtain ⟨f, hf⟩ := hs o
  rw [hf]; rfl

theorem before_same {h h' : ω → Event δ} (hs : Pipe.Same h h') (o : ω) (d : Event δ) : d.Before (h' o) ↔ d.Before (h o) := by
  obtain ⟨f, hf⟩ := hs o
  rw [hf]; rfl

/-- Polling alarms does not change anything that matters. -/
theorem Inv.same (h : Inv objs s q) {pipe : Pipe ω δ} (hs : Pipe.Same s.pipe.heap pipe.heap)
    (hp : Pipe.Rep s.cfg.eventsCap pipe q s.clock) : Inv objs { s with pipe } q := by
  refine { h with pipe := hp, arrival := ?_, keys := ?_, order := ?_ }
  · intro x hx
    obtain ⟨f, hf⟩ := hs x.obj
    simp only [hf]; exact h.arrival x hx
  · have : (q.map fun x => (pipe.heap x.obj).key) = q.map fun x => (s.pipe.heap x.obj).key :=
      List.map_congr_left (fun x _ => key_same hs x.obj)
    simp only [this]; exact h.keys
  · intro x hx d t n e t' h1 h2
    exact (before_same hs x.obj d).mpr (h.order x hx d t n e t' h1 h2)

/-- The event at the head of the pipeline is taken out and recorded. -/
theorem Inv.fire {x : Item ω} (h : Inv objs s (x :: q)) {pipe : Pipe ω δ} (hs : Pipe.Same s.pipe.heap pipe.heap)
    (hp : Pipe.Rep s.cfg.eventsCap pipe q s.clock) (hdue : x.deadline ≤ near s.clock) (depth : Nat) :
    Inv objs { s.hold x.obj with pipe, trace := .fired (pipe.heap x.obj) s.clock depth :: s.trace } q := by
  have hxa := (h.arrival x (by simp)).1
  have hxd := h.pipe.deadline x (by simp)
  obtain ⟨f, hf⟩ := hs x.obj
  have hnd := List.nodup_cons.mp h.pipe.nodup
  refine ⟨h.store, h.full, h.small, hp, ?_, (List.pairwise_cons.mp h.before).2, ?_, h.clock, ?_, h.seqs, ?_, ?_, ?_⟩
  · intro o
    have h7 := h.single o
    simp only [owners, ES.hold, List.map_cons, List.mem_cons, List.count_cons] at h7 ⊢
    by_cases he : x.obj = o
    · subst he
      simp only [true_or, if_true, beq_self_eq_true, hnd.1, if_false] at h7 ⊢; omega
    · simp only [beq_iff_eq, he, Ne.symm he, false_or, if_false] at h7 ⊢; omega
  · intro y hy
    obtain ⟨g, hg⟩ := hs y.obj
    simp only [hg]; exact h.arrival y (by simp [hy])
  · have hk := h.keys
    have hm : (q.map fun x => (pipe.heap x.obj).key) = q.map fun x => (s.pipe.heap x.obj).key :=
      List.map_congr_left (fun x _ => key_same hs x.obj)
    simp only [firedKeys, scheduledKeys, hm, key_same hs x.obj]
    rw [List.map_cons] at hk
    rw [List.cons_append]
    exact List.perm_middle.symm.trans hk
  · intro e t n hm
    rcases List.mem_cons.mp hm with he | hm
    · cases he
      rw [hf]; simpa [hxd] using hdue
    · exact h.ontime e t n hm
  · intro y hy d t n e t' hsub hseq
    rcases List.sublist_cons_iff.mp hsub with hsub | ⟨r, hr, hsub⟩
    · exact (before_same hs y.obj d).mpr (h.order y (by simp [hy]) d t n e t' hsub hseq)
    · cases hr
      have hb := (List.pairwise_cons.mp h.before).1 y hy
      have hya := (h.arrival y (by simp [hy])).1
      have hyd := h.pipe.deadline y (by simp [hy])
      obtain ⟨g, hg⟩ := hs y.obj
      simp only [Event.Before, hf, hg, hxd, hxa, hyd, hya]
      exact hb
  · intro d t n c t' n' e t'' hsub hseq
    rcases List.sublist_cons_iff.mp hsub with hsub | ⟨r, hr, hsub⟩
    · exact h.fifo d t n c t' n' e t'' hsub hseq
    · cases hr
      refine (before_same hs x.obj c).mpr (h.order x (by simp) c t' n' e t'' hsub ?_)
      rw [hseq, ← hxa, hf]

theorem drain_step {call : ES ω δ H → Event δ → Res (ES ω δ H)} {depth fuel : Nat} (h : s.drainWith b call depth (fuel + 1) = .ok s') :
    ∃ due pipe, s.pipe.containsExpired b s.clock = .ok (due, pipe) ∧
      ((due = false ∧ s' = { s with pipe }) ∨
       (due = true ∧ ∃ o pipe' s2, pipe.expire b s.clock = .ok (some o, pipe') ∧
          call { s.hold o with pipe := pipe', trace := .fired (pipe'.heap o) s.clock depth :: s.trace } (pipe'.heap o) = .ok s2 ∧
          (s2.unhold o).drainWith b call depth fuel = .ok s')) := by
  unfold drainWith at h
  rw [bind_ok] at h
  obtain ⟨⟨due, pipe⟩, h1, h⟩ := h
  refine ⟨due, pipe, h1, ?_⟩
  cases due with
  | false => left; simp only [Bool.false_eq_true, if_false, res_pure] at h; exact ⟨rfl, (Except.ok.inj h).symm⟩
  | true =>
    right
    simp only [if_true] at h
    rw [bind_ok] at h
    obtain ⟨⟨x, pipe'⟩, h2, h⟩ := h
    simp only [bind_ok] at h
    obtain ⟨_, _, o, h3, s2, h4, h5⟩ := h
    obtain rfl := deref_ok h3
    exact ⟨rfl, o, pipe', s2, h2, h4, h5⟩

theorem drain_keeps {call : ES ω δ H → Event δ → Res (ES ω δ H)} (hc : Good objs call) {depth : Nat} :
    ∀ (fuel : Nat) (s s' : ES ω δ H), s.drainWith b call depth fuel = .ok s' →
    Grows s s' ∧ (Tame s' → ∀ q, Inv objs s q → ∃ q', Inv objs s' q' ∧ ∀ x ∈ q', near s'.clock < x.deadline)
  | 0, s, s', h => by cases h
  | fuel + 1, s, s', h => by
    obtain ⟨due, pipe, h1, hor⟩ := drain_step h
    rcases hor with ⟨hd, rfl⟩ | ⟨hd, o, pipe', s2, h2, h3, h4⟩
    · refine ⟨⟨le_refl _, ⟨[], rfl⟩, rfl, rfl, fun hm => hm.same rfl rfl (fun _ => rfl)⟩, fun ht q hq => ⟨q, ?_⟩⟩
      obtain ⟨heap', e1, e2, e3⟩ := Pipe.containsExpired_spec (b := b) hq.pipe hq.clock ht.1
      rw [e1] at h1
      obtain ⟨e4, rfl⟩ := Prod.mk.inj (Except.ok.inj h1)
      refine ⟨hq.same e2 e3, ?_⟩
      rw [hd] at e4
      intro x hx
      cases q with
      | nil => simp at hx
      | cons y q =>
        simp only [List.head?_cons, Option.any_some, decide_eq_false_iff_not, not_le] at e4
        have hs := (List.pairwise_cons.mp hq.pipe.sorted).1
        rcases List.mem_cons.mp hx with rfl | hx
        · exact e4
        · have := hs x hx; simp only at e4 ⊢; omega
    · obtain ⟨ht1, ht2⟩ := hc _ _ _ h3
      obtain ⟨hg, hi⟩ := drain_keeps hc fuel _ _ h4
      have hl : s2.locals.erase o = s.locals := by rw [ht1.locals]; simp [ES.hold]
      have hgr1 : Grows s (s2.unhold o) := by
        obtain ⟨l, hl'⟩ := ht1.trace
        exact ⟨ht1.clock, ⟨l ++ [_], by rw [List.append_assoc]; exact hl'⟩, hl, ht1.cfg,
          fun hm => (ht1.map (hm.same rfl rfl (fun _ => rfl))).same rfl rfl (fun _ => rfl)⟩
      refine ⟨hgr1.trans hg, fun ht q hq => ?_⟩
      have hts := (hgr1.trans hg).tame ht
      obtain ⟨heap', e1, e2, e3⟩ := Pipe.containsExpired_spec (b := b) hq.pipe hq.clock hts.1
      rw [e1] at h1
      obtain ⟨e4, rfl⟩ := Prod.mk.inj (Except.ok.inj h1)
      rw [hd] at e4
      cases q with
      | nil => simp at e4
      | cons y q =>
        simp only [List.head?_cons, Option.any_some, decide_eq_true_eq] at e4
        obtain ⟨p', e5, e6, e7⟩ := Pipe.expire_spec (b := b) e3 hq.clock hts.1 e4
        rw [e5] at h2
        obtain ⟨e8, rfl⟩ := Prod.mk.inj (Except.ok.inj h2)
        obtain rfl := Option.some.inj e8
        obtain ⟨q2, h5⟩ := ht2 (tame_of hg.clock hg.trace ht) q (hq.fire (e2.trans e6) e7 e4 depth)
        exact hi ht q2 (h5.unhold _)

theorem sleep_keeps (h : s.sleep b = .ok s') : Keeps objs s s' := by
  have key : ∀ ms, Keeps objs s (s.sleepFor ms) := fun ms =>
    ⟨⟨by simp only [sleepFor]; omega, ⟨[_], rfl⟩, rfl, rfl, fun hm => hm.same rfl rfl (fun _ => rfl)⟩, fun _ q hq => ⟨q, hq.slept ms⟩⟩
  unfold sleep at h
  split at h
  · split at h
    · rw [bind_ok] at h
      obtain ⟨_, _, h⟩ := h
      rw [res_pure] at h; rw [← Except.ok.inj h]; exact key _
    · rw [bind_ok] at h
      obtain ⟨_, _, h⟩ := h
      rw [res_pure] at h; rw [← Except.ok.inj h]; exact key _
  · rw [← Except.ok.inj h]; exact Keeps.refl s

theorem loopWith_keeps {call : ES ω δ H → Event δ → Res (ES ω δ H)} (hc : Good objs call) {depth fuel : Nat}
    (h : s.loopWith b call depth fuel = .ok s') : Keeps objs s s' := by
  unfold loopWith at h
  rw [bind_ok] at h
  obtain ⟨s1, h1, h2⟩ := h
  obtain ⟨h3, h4⟩ := drain_keeps hc fuel _ _ h1
  refine Keeps.trans ⟨h3, fun ht q hq => ?_⟩ (sleep_keeps h2)
  obtain ⟨q', h5, _⟩ := h4 ht q hq
  exact ⟨q', h5⟩

/-! ### `trigger` and what programs do -/

theorem trigger_good {rounds : Nat} : ∀ (fuel depth : Nat), Good objs (trigger b beh rounds fuel depth)
  | 0, _ => fun s e s' h => by cases h
  | fuel + 1, depth => fun s e s' h => by
    unfold trigger at h
    simp only [bind_ok] at h
    obtain ⟨_, _, v, _, _, _, h⟩ := h
    exact visit_keeps (fun s x s' h => handle_keeps (trigger_good fuel (depth + 1))
      (fun s s' h => loopWith_keeps (trigger_good fuel (depth + 1)) h) h) _ _ s s' h

theorem loop_keeps {nest fuel : Nat} (h : s.loop b beh nest fuel = .ok s') : Keeps objs s s' :=
  loopWith_keeps (trigger_good _ _) h

theorem run_keeps {nest fuel : Nat} {p : Prog ω δ H} (h : s.run b beh nest fuel p = .ok s') : Keeps objs s s' :=
  exec_keeps (trigger_good _ _) (fun _ _ h => loop_keeps h) p s s' h

/-! ### Setting up -/

theorem populate_all {n : Nat} : ∀ (l l' : List ω) (p : Pool ω), Pool.Rep n p l' → (l' ++ l).Nodup → (l' ++ l).length ≤ n →
    ∃ p', l.foldlM (fun p o => p.populate b o) p = .ok p' ∧ Pool.Rep n p' (l' ++ l) ∧ p'.outside = p.outside
  | [], l', p, h, _, _ => ⟨p, rfl, by simpa using h, rfl⟩
  | o :: l, l', p, h, hn, hl => by
    have h1 : o ∉ l' := by
      intro hm
      rw [List.nodup_append] at hn
      exact hn.2.2 o hm o (by simp) rfl
    obtain ⟨p1, h2, h3, h4⟩ := Pool.populate_spec (b := b) h h1 (by simp at hl; omega)
    obtain ⟨p2, h5, h6, h7⟩ := populate_all l (l' ++ [o]) p1 h3 (by simpa using hn) (by simpa using hl)
    exact ⟨p2, by rw [List.foldlM_cons, h2]; exact h5, by simpa using h6, by rw [h7, h4]⟩

theorem create_inv {cfg : Config} {blank : δ} {now : Int} (hn : 0 ≤ now) (hnd : objs.Nodup) (hl : objs.length = cfg.eventsCap)
    (hs : cfg.eventsCap < 2 ^ 16) : ∃ s : ES ω δ H, create b cfg objs blank now = .ok s ∧ Inv objs s [] ∧ s.cfg = cfg := by
  have hsz : cfg.eventsCap < sizeMod := by have := sizeMod_ge; omega
  obtain ⟨p, h1, h2, h3⟩ := populate_all (b := b) objs [] _ (Pool.Rep.create hsz (fun _ => 0)) (by simpa using hnd) (by simp [hl])
  refine ⟨_, by rw [create, h1, res_bind_ok, res_pure], ?_, rfl⟩
  refine ⟨by simpa using h2, hl, hs, ⟨?_, by simp, by simp, by simp, by simp, by simp, by simp⟩, ?_, by simp, by simp, hn, by simp [firedKeys, scheduledKeys], by
    simp [scheduledKeys], by simp, by simp, by simp⟩
  · exact ⟨[], List.replicate cfg.eventsCap none, [], by simp [Vec.create, Vec.mk'], by simp, hsz, by simp, by simp [Seq.owned]⟩
  · intro o
    simp only [owners, List.map_nil, List.not_mem_nil, if_false, h3, List.count_nil, Pool.create]; omega

/-- Every reachable state satisfies the invariant. -/
theorem Reach.inv {cfg : Config} (hnd : objs.Nodup) (hl : objs.length = cfg.eventsCap) (hs : cfg.eventsCap < 2 ^ 16)
    (h : Reach b beh cfg objs s) (ht : Tame s) : ∃ q, Inv objs s q ∧ s.locals = [] ∧ s.cfg = cfg := by
  have key : s.locals = [] ∧ s.cfg = cfg ∧ (Tame s → ∃ q, Inv objs s q) := by
    clear ht
    induction h with
    | create hn hc =>
      obtain ⟨s1, h1, h2, h3⟩ := create_inv (b := b) (δ := δ) (H := H) hn hnd hl hs
      rw [hc] at h1
      obtain rfl := Except.ok.inj h1
      refine ⟨?_, h3, fun _ => ⟨[], h2⟩⟩
      unfold ES.create at hc
      rw [bind_ok] at hc
      obtain ⟨_, _, hc⟩ := hc
      rw [res_pure] at hc; rw [← Except.ok.inj hc]
    | attach _ ha ih =>
      obtain ⟨h1, _, _, _, _, _, h3⟩ := attach_keeps (objs := objs) ha
      refine ⟨h1.locals.trans ih.1, h1.cfg.trans ih.2.1, fun ht => ?_⟩
      obtain ⟨q, hq⟩ := ih.2.2 (h1.tame ht)
      exact ⟨q, h3 q hq⟩
    | exec _ he ih =>
      obtain ⟨h1, h2⟩ := run_keeps (objs := objs) he
      refine ⟨h1.locals.trans ih.1, h1.cfg.trans ih.2.1, fun ht => ?_⟩
      obtain ⟨q, hq⟩ := ih.2.2 (h1.tame ht)
      exact h2 ht q hq
    | loop _ he ih =>
      obtain ⟨h1, h2⟩ := loop_keeps (objs := objs) he
      refine ⟨h1.locals.trans ih.1, h1.cfg.trans ih.2.1, fun ht => ?_⟩
      obtain ⟨q, hq⟩ := ih.2.2 (h1.tame ht)
      exact h2 ht q hq
  obtain ⟨h1, h2, h3⟩ := key
  obtain ⟨q, hq⟩ := h3 ht
  exact ⟨q, hq, h1, h2⟩

theorem create_map {cfg : Config} {blank : δ} {now : Int} (hh : cfg.handlerCap < sizeMod) (hc : create b cfg objs blank now = .ok s) :
    MapRep s := by
  unfold ES.create at hc
  rw [bind_ok] at hc
  obtain ⟨_, _, hc⟩ := hc
  rw [res_pure] at hc
  rw [← Except.ok.inj hc]
  refine ⟨by simp, hh, fun id v hv => ?_⟩
  simp only [List.getElem?_replicate] at hv
  split at hv
  · rw [← Option.some.inj hv]
    exact ⟨List.replicate cfg.handlerCap none, [], by simp [Vec.create, Vec.mk', attached], by simp [attached]⟩
  · cases hv

theorem Reach.map {cfg : Config} (hh : cfg.handlerCap < sizeMod) (h : Reach b beh cfg objs s) : MapRep s := by
  induction h with
  | create hn hc => exact create_map hh hc
  | attach _ ha ih => exact attach_map ha ih
  | exec _ he ih => exact (run_keeps (objs := objs) he).1.map ih
  | loop _ he ih => exact (loop_keeps (objs := objs) he).1.map ih

theorem Reach.cfg_eq {cfg : Config} (h : Reach b beh cfg objs s) : s.cfg = cfg := by
  induction h with
  | create hn hc =>
    unfold ES.create at hc
    rw [bind_ok] at hc
    obtain ⟨_, _, hc⟩ := hc
    rw [res_pure] at hc
    rw [← Except.ok.inj hc]
  | attach _ ha ih => rw [← ih]; exact (attach_keeps (objs := objs) ha).1.cfg
  | exec _ he ih => rw [← ih]; exact (run_keeps (objs := objs) he).1.cfg
  | loop _ he ih => rw [← ih]; exact (loop_keeps (objs := objs) he).1.cfg

end ES
end Spine
