import Verif.Proofs.EventSystem
/-!
# The part of the invariant of the event system that does not depend on time

Who owns which event object, and which events were delivered: for all delays and all clocks.
-/

namespace Spine

variable {ω δ H : Type} [DecidableEq ω]

set_option linter.unusedSectionVars false

namespace Pipe

variable {b : Build} {n : Nat} {p p' : Pipe ω δ} {q : List ω} {now : Int}

/-- The pipe points to the objects `q`. -/
structure Refs (n : Nat) (p : Pipe ω δ) (q : List ω) : Prop where
  vec : Vec.Exact (sharedPtr ω) n p.vec (q.map some)
  nodup : q.Nodup

theorem Refs.slots (h : Refs n p q) (o : ω) : slotRefs o p.vec.log = if o ∈ q then 1 else 0 :=
  Pool.Rep.refs (p := { vec := p.vec, lookup := 0, outside := fun _ => 0 }) ⟨h.vec, h.nodup, by norm_num⟩ o

theorem Refs.size (h : Refs n p q) : p.vec.size = q.length := by
  have := h.vec.rep.holds.1; simpa using this

theorem expired_same {x : Option ω} {r : Bool} (h : p.expired x now = .ok (r, p')) :
    ∃ o, x = some o ∧ p'.vec = p.vec ∧ Same p.heap p'.heap ∧ (r = true → (p'.heap o).timer.expired = true) ∧
      ((p.heap o).timer.expired = true → r = true) := by
  unfold expired at h
  simp only [bind_ok] at h
  obtain ⟨o, ho, ⟨r', t⟩, hp, h⟩ := h
  rw [res_pure] at h
  cases h
  refine ⟨o, deref_ok ho, rfl, ?_⟩
  unfold Alarm.poll at hp
  by_cases hx : (p.heap o).timer.expired = true
  · rw [if_pos hx] at hp
    cases hp
    refine ⟨?_, fun _ => by simp [hx], fun _ => rfl⟩
    intro y
    by_cases hy : y = o
    · subst hy; exact ⟨(p.heap y).timer.expired, by simp⟩
    · exact ⟨(p.heap y).timer.expired, by rw [store_other _ _ hy]⟩
  · rw [if_neg hx, bind_ok] at hp
    obtain ⟨c, _, hp⟩ := hp
    cases c with
    | true =>
      simp only [if_true, res_pure] at hp
      cases hp
      exact ⟨same_store p o true, fun _ => by simp, fun _ => rfl⟩
    | false =>
      simp only [Bool.false_eq_true, if_false, res_pure] at hp
      cases hp
      refine ⟨same_store p o (p.heap o).timer.expired, ?_, fun h => absurd h hx⟩
      intro h; cases h

theorem containsExpired_any {r : Bool} (hr : Refs n p q) (h : p.containsExpired b now = .ok (r, p')) :
    Refs n p' q ∧ Same p.heap p'.heap ∧ (r = true → ∃ o q', q = o :: q' ∧ (p'.heap o).timer.expired = true) := by
  unfold containsExpired at h
  have hc : p.containsFutures = !q.isEmpty := by
    unfold containsFutures Vec.empty; rw [hr.size]; cases q <;> simp
  rw [hc] at h
  cases q with
  | nil => cases h; exact ⟨hr, Same.refl _, fun h => by cases h⟩
  | cons o q =>
    simp only [List.isEmpty_cons, Bool.not_false, if_true] at h
    obtain ⟨v', h1, _⟩ := hr.vec.step (b := b) (op := .peekFront) (o := .val (some o)) (q' := (o :: q).map some)
      (fun _ => rfl) (by simp [Seq.step]) trivial trivial
    simp only [Vec.step] at h1
    rw [bind_ok] at h1
    obtain ⟨y, hy, h1⟩ := h1
    rw [res_pure] at h1
    have hyo : y = some o := by simp only [Except.ok.injEq, Prod.mk.injEq, Vec.Out.val.injEq] at h1; exact h1.1
    rw [hy, res_bind_ok, hyo] at h
    obtain ⟨o', ho', hv, hs, he, _⟩ := expired_same h
    obtain rfl := Option.some.inj ho'
    exact ⟨⟨by rw [hv]; exact hr.vec, hr.nodup⟩, hs, fun hr' => ⟨o, q, rfl, he hr'⟩⟩

theorem expire_any {o : ω} {x : Option ω} (hr : Refs n p (o :: q)) (hexp : (p.heap o).timer.expired = true)
    (h : p.expire b now = .ok (x, p')) : x = some o ∧ Refs n p' q ∧ Same p.heap p'.heap := by
  unfold expire at h
  have hne : p.vec.empty = false := by unfold Vec.empty; rw [hr.size]; simp
  rw [hne] at h
  simp only [Bool.not_false, spnAssert_true, res_bind_ok, Bool.false_eq_true, if_false] at h
  obtain ⟨v', h1, h2⟩ := hr.vec.step (b := b) (op := .popFront true) (o := .val (some o)) (q' := q.map some)
    (fun _ => rfl) (by simp [Seq.step]) trivial rfl
  simp only [Vec.step] at h1
  rw [bind_ok] at h1
  obtain ⟨⟨y, v⟩, hy, h1⟩ := h1
  rw [res_pure] at h1
  obtain ⟨hyo, rfl⟩ : y = some o ∧ v = v' := by
    simp only [Except.ok.injEq, Prod.mk.injEq, Vec.Out.val.injEq] at h1; exact h1
  subst hyo
  rw [hy] at h
  simp only [res_bind_ok, Option.isSome_some, spnAssert_true, bind_ok] at h
  obtain ⟨p1, h3, ⟨r, p2⟩, h4, h⟩ := h
  have h5 : p1.vec = v ∧ Same p.heap p1.heap ∧ (p1.heap o).timer.expired = true := by
    unfold assertExpired at h3
    cases b with
    | release => cases h3; exact ⟨rfl, Same.refl _, hexp⟩
    | debug =>
      simp only [bind_ok] at h3
      obtain ⟨⟨r', p3⟩, h6, _, h7, h8⟩ := h3
      rw [res_pure] at h8
      cases h8
      obtain ⟨o', ho', hv, hs, he, hrev⟩ := expired_same h6
      obtain rfl := Option.some.inj ho'
      exact ⟨hv, hs, he (hrev hexp)⟩
  obtain ⟨o', ho', hv, hs, he, hrev⟩ := expired_same h4
  obtain rfl := Option.some.inj ho'
  have hrt := hrev h5.2.2
  subst hrt
  rw [res_pure] at h
  cases h
  refine ⟨rfl, ⟨?_, (List.nodup_cons.mp hr.nodup).2⟩, h5.2.1.trans hs⟩
  rw [hv, h5.1]; exact h2

/-- A successful push of an object that is not pending puts it somewhere. -/
theorem push_any {o : ω} {reads : Nat → Int × Int} (hr : Refs n p q) (hroom : q.length < n) (ho : o ∉ q)
    (h : p.push b (some o) now reads = .ok p') :
    ∃ q', Refs n p' q' ∧ q'.Perm (o :: q) ∧ (∀ x, x ≠ o → p'.heap x = p.heap x) ∧ (p'.heap o).seq = (p.heap o).seq := by
  unfold push at h
  rw [bind_ok] at h
  obtain ⟨_, _, h⟩ := h
  simp only [deref, res_bind_ok] at h
  rw [bind_ok] at h
  obtain ⟨e, he, h⟩ := h
  simp only [bind_ok] at h
  obtain ⟨i, _, h⟩ := h
  have hseq : e.seq = (p.heap o).seq := by
    unfold Event.reschedule at he
    simp only [bind_ok] at he
    obtain ⟨_, _, _, _, _, _, t, _, he⟩ := he
    rw [res_pure] at he
    rw [← Except.ok.inj he]
  have hheap := place_heap h
  have final : ∀ q' : List ω, Vec.Exact (sharedPtr ω) n p'.vec (q'.map some) → q'.Perm (o :: q) →
      ∃ q', Refs n p' q' ∧ q'.Perm (o :: q) ∧ (∀ x, x ≠ o → p'.heap x = p.heap x) ∧ (p'.heap o).seq = (p.heap o).seq := by
    intro q' hv hp
    refine ⟨q', ⟨hv, hp.nodup_iff.mpr (List.nodup_cons.mpr ⟨ho, hr.nodup⟩)⟩, hp, fun x hx => ?_, ?_⟩
    · rw [hheap, store_other _ _ hx]
    · rw [hheap, store_same, hseq]
  unfold place at h
  cases i with
  | none =>
    rw [bind_ok] at h
    obtain ⟨v, hv, h⟩ := h
    rw [res_pure] at h
    obtain ⟨v', e1, e2⟩ := hr.vec.step (b := b) (op := .pushBack (some o)) (o := .unit)
      (q' := q.map some ++ [some o]) (fun _ => rfl) (by simp [Seq.step, hroom]) trivial trivial
    simp only [Vec.step, store_vec] at e1 hv
    rw [hv, res_bind_ok, res_pure] at e1
    obtain ⟨_, rfl⟩ := Prod.mk.inj (Except.ok.inj e1)
    refine final (q ++ [o]) ?_ (by simpa using List.perm_append_comm (l₁ := q) (l₂ := [o]))
    rw [← Except.ok.inj h]; simpa using e2
  | some i =>
    simp only [bind_ok] at h
    obtain ⟨v, hv, _, _, h⟩ := h
    rw [res_pure] at h
    obtain ⟨v', e1, e2⟩ := hr.vec.step (b := b) (op := .insert i (some o)) (o := .unit)
      (q' := (q.map some).take i ++ some o :: (q.map some).drop i) (fun _ => rfl)
      (by simp [Seq.step, hroom]) trivial trivial
    simp only [Vec.step, store_vec] at e1 hv
    rw [hv, res_bind_ok, res_pure] at e1
    obtain ⟨_, rfl⟩ := Prod.mk.inj (Except.ok.inj e1)
    refine final (q.take i ++ o :: q.drop i) ?_ ?_
    · rw [← Except.ok.inj h, List.map_append, List.map_cons, List.map_take, List.map_drop]; exact e2
    · refine List.perm_middle.trans ?_
      rw [List.take_append_drop]

end Pipe

namespace ES

variable {b : Build} {beh : Behaviour ω δ H} {objs : List ω} {s s' : ES ω δ H} {q : List ω} {cfg : Config}

/-- How many owners an event object has besides the pool. -/
def uses (s : ES ω δ H) (q : List ω) (o : ω) : Nat := (if o ∈ q then 1 else 0) + s.store.outside o + s.locals.count o

/-- The invariant: `q` are the pending objects. -/
structure Base (objs : List ω) (s : ES ω δ H) (q : List ω) : Prop where
  store : Pool.Rep s.cfg.eventsCap s.store objs
  full : objs.length = s.cfg.eventsCap
  small : s.cfg.eventsCap < 2 ^ 16
  pipe : Pipe.Refs s.cfg.eventsCap s.pipe q
  single : ∀ o, uses s q o ≤ if o ∈ objs then 1 else 0
  keys : (firedKeys s.trace ++ q.map fun x => (s.pipe.heap x).key).Perm (scheduledKeys s.trace)
  seqs : (scheduledKeys s.trace).map (·.seq) = (List.range s.count).reverse

theorem Base.pool (h : Base objs s q) (o : ω) : s.pool.outside o = uses s q o := by
  simp only [ES.pool, uses, h.pipe.slots]
  split <;> rfl

theorem Base.change (h : Base objs s q) (hs : Pool.Rep s'.cfg.eventsCap s'.store objs) (hcfg : s'.cfg = s.cfg)
    (hvec : s'.pipe.vec = s.pipe.vec) (hheap : ∀ x ∈ q, s'.pipe.heap x = s.pipe.heap x)
    (hsingle : ∀ o, uses s' q o ≤ if o ∈ objs then 1 else 0) (htrace : s'.trace = s.trace)
    (hcount : s'.count = s.count) : Base objs s' q := by
  have hk : (q.map fun x => (s'.pipe.heap x).key) = q.map fun x => (s.pipe.heap x).key :=
    List.map_congr_left (fun x hx => by rw [hheap x hx])
  exact ⟨hs, by rw [hcfg]; exact h.full, by rw [hcfg]; exact h.small, ⟨by rw [hcfg, hvec]; exact h.pipe.vec, h.pipe.nodup⟩, hsingle,
    by rw [hk, htrace]; exact h.keys, by rw [htrace, hcount]; exact h.seqs⟩

theorem fetch_any (h : Base objs s q) (id : Nat) (delay : Int) (data : δ) :
    (∃ o s', s.fetch b id delay data = .ok (some o, s') ∧ o ∈ objs ∧ uses s q o = 0 ∧ uses s' q o = 0 ∧ Base objs s' q) ∨
    ((∀ o ∈ objs, uses s q o ≠ 0) ∧ match b with
      | .debug => s.fetch b id delay data = .error .assertFailed
      | .release => ∃ s', s.fetch b id delay data = .ok (none, s') ∧ Base objs s' q) := by
  obtain ⟨r, p', h1, h2, h3⟩ := Pool.acquire_spec (b := b) (h.store.withOutside s.pool.outside) (by rw [h.full]; exact h.small) (.inr h.full)
    (s.store.vec.size + 1) (by rw [h.store.size]; omega)
  have h1' : s.pool.acquire b (s.store.vec.size + 1) = .ok (r, p') := h1
  cases r with
  | some o =>
    left
    obtain ⟨h4, h5, _⟩ := h3
    have h5' : uses s q o = 0 := by rw [← h.pool]; exact h5
    have hf : ∃ s', s.fetch b id delay data = .ok (some o, s') ∧ s'.store = { p' with outside := s.store.outside } := by
      simp only [fetch, h1', res_bind_ok, Option.isSome_some, spnAssert_true, res_pure]; exact ⟨_, rfl, rfl⟩
    obtain ⟨s', hf, hst⟩ := hf
    have hF := fetch_grows hf
    have hu : ∀ x, uses s' q x = uses s q x := fun x => by simp only [uses, hF.store, hF.locals]
    refine ⟨o, _, hf, h4, h5', by rw [hu]; exact h5', ?_⟩
    refine h.change (by rw [hF.cfg, hst]; exact h2.withOutside _) hF.cfg hF.vec ?_ (fun x => by rw [hu]; exact h.single x) hF.trace hF.count
    intro x hx
    rw [hF.heap]
    refine Pipe.store_other _ _ ?_
    rintro rfl
    simp only [uses, if_pos hx] at h5'; omega
  | none =>
    right
    obtain ⟨h4, _⟩ := h3
    refine ⟨fun o ho => by rw [← h.pool]; exact h4 o ho, ?_⟩
    cases b with
    | debug => simp only [fetch, h1', res_bind_ok, Option.isSome_none, spnAssert_debug_false, res_bind_error]
    | release =>
      have hf : ∃ s', s.fetch .release id delay data = .ok (none, s') ∧ s'.store = { p' with outside := s.store.outside } := by
        simp only [fetch, h1', res_bind_ok, spnAssert_release, res_pure]; exact ⟨_, rfl, rfl⟩
      obtain ⟨s', hf, hst⟩ := hf
      have hF := fetch_grows hf
      have hu : ∀ x, uses s' q x = uses s q x := fun x => by simp only [uses, hF.store, hF.locals]
      exact ⟨_, hf, h.change (by rw [hF.cfg, hst]; exact h2.withOutside _) hF.cfg hF.vec (fun x _ => by rw [hF.heap])
        (fun x => by rw [hu]; exact h.single x) hF.trace hF.count⟩

theorem fetch_base (h : Base objs s q) {id : Nat} {delay : Int} {data : δ} {x : Option ω} (hf : s.fetch b id delay data = .ok (x, s')) :
    Base objs s' q ∧ ∀ o, x = some o → o ∈ objs ∧ uses s' q o = 0 := by
  rcases fetch_any (b := b) h id delay data with ⟨o, s1, h1, h2, _, h3, h4⟩ | ⟨_, h2⟩
  · rw [h1] at hf; cases hf
    refine ⟨h4, ?_⟩
    rintro _ ⟨⟩
    exact ⟨h2, h3⟩
  · cases b with
    | debug => simp only at h2; rw [h2] at hf; cases hf
    | release =>
      obtain ⟨s1, h3, h4⟩ := h2
      rw [h3] at hf; cases hf
      exact ⟨h4, by simp⟩

theorem Base.mem (h : Base objs s q) {o : ω} (ho : uses s q o ≠ 0) : o ∈ objs := by
  by_contra hc
  have := h.single o
  rw [if_neg hc] at this; omega

theorem Base.room (h : Base objs s q) {o : ω} (ho : o ∈ objs) (hfree : o ∉ q) : q.length < s.cfg.eventsCap := by
  have hsub : (o :: q) ⊆ objs := by
    intro x hx
    rcases List.mem_cons.mp hx with rfl | hx
    · exact ho
    · exact h.mem (by simp only [uses, if_pos hx]; omega)
  have hn : (o :: q).Nodup := List.nodup_cons.mpr ⟨hfree, h.pipe.nodup⟩
  have := (List.subperm_of_subset hn hsub).length_le
  simp only [List.length_cons, h.full] at this
  omega

theorem enqueue_base (h : Base objs s q) {o : ω} (ho : o ∈ objs) (hown : uses s q o = 0) (he : s.enqueue b (some o) = .ok s') :
    ∃ q', Base objs s' q' ∧ q'.Perm (o :: q) := by
  obtain ⟨o', pipe, ho', hp, rfl⟩ := enqueue_ok he
  obtain rfl := Option.some.inj ho'
  have hq : o ∉ q := fun hm => by simp only [uses, if_pos hm] at hown; omega
  have hne : ∀ x ∈ q, x ≠ o := fun x hx hxo => hq (hxo ▸ hx)
  have hr : Pipe.Refs s.cfg.eventsCap (s.stamp (some o)).pipe q := ⟨h.pipe.vec, h.pipe.nodup⟩
  obtain ⟨q', h1, h2, h3, h4⟩ := Pipe.push_any hr (h.room ho hq) hq hp
  have hseq : (pipe.heap o).seq = s.count := by rw [h4, stamp_some]; simp
  refine ⟨q', ⟨h.store, h.full, h.small, h1, ?_, ?_, ?_⟩, h2⟩
  · intro x
    have hx := h.single x
    simp only [uses, h2.mem_iff, List.mem_cons] at hx hown ⊢
    by_cases hxo : x = o
    · subst hxo
      simp only [hq, if_false] at hown
      simp only [true_or, if_true, ho]; omega
    · simpa only [hxo, false_or] using hx
  · simp only [firedKeys, scheduledKeys]
    refine (List.Perm.append_left _ (h2.map _)).trans ?_
    rw [List.map_cons]
    refine List.perm_middle.trans ?_
    refine List.Perm.cons _ ?_
    have : (q.map fun x => (pipe.heap x).key) = q.map fun x => (s.pipe.heap x).key :=
      List.map_congr_left (fun x hx => by rw [h3 x (hne x hx), stamp_some]; simp [Pipe.store_other _ _ (hne x hx)])
    rw [this]; exact h.keys
  · simp only [scheduledKeys, List.map_cons]
    rw [h.seqs, List.range_succ, List.reverse_append]
    simp [Event.key, hseq]

/-- A computation that keeps the invariant. -/
def Holds (objs : List ω) (s s' : ES ω δ H) : Prop :=
  s'.locals = s.locals ∧ ∀ q, Base objs s q → ∃ q', Base objs s' q'

theorem Holds.refl (s : ES ω δ H) : Holds objs s s := ⟨rfl, fun q h => ⟨q, h⟩⟩

theorem Holds.trans {s1 s2 s3 : ES ω δ H} (h : Holds objs s1 s2) (h' : Holds objs s2 s3) : Holds objs s1 s3 := by
  refine ⟨h'.1.trans h.1, fun q hq => ?_⟩
  obtain ⟨q', hq'⟩ := h.2 q hq
  exact h'.2 q' hq'

theorem schedule_holds {id : Nat} {delay : Int} {data : δ} (h : s.schedule b id delay data = .ok s') : Holds objs s s' := by
  unfold schedule at h
  rw [bind_ok] at h
  obtain ⟨⟨x, s1⟩, h1, h2⟩ := h
  have hf := fetch_grows h1
  refine ⟨(enqueue_grows h2).locals.trans hf.locals, fun q hq => ?_⟩
  obtain ⟨h3, h4⟩ := fetch_base hq h1
  obtain ⟨o, _, rfl, _⟩ := enqueue_ok h2
  obtain ⟨h5, h6⟩ := h4 o rfl
  obtain ⟨q', h7, _⟩ := enqueue_base h3 h5 h6 h2
  exact ⟨q', h7⟩

theorem Base.gain (h : Base objs s q) {o : ω} (ho : o ∈ objs) (hown : uses s q o = 0) :
    Base objs { s with store := s.store.gain (some o) } q := by
  refine h.change (h.store.withOutside _) rfl rfl (fun _ _ => rfl) ?_ rfl rfl
  intro o'
  have h7 := h.single o'
  simp only [uses, Pool.gain] at hown h7 ⊢
  by_cases he : o' = o
  · subst he; simp only [if_true, if_pos ho]; omega
  · simpa only [he, if_false] using h7

theorem event_base {id : Nat} {delay : Int} {data : δ} {x : Option ω} (h : Base objs s q)
    (he : s.event b id delay data = .ok (x, s')) : Base objs s' q := by
  unfold event at he
  rw [bind_ok] at he
  obtain ⟨⟨y, s1⟩, h1, h2⟩ := he
  cases h2
  obtain ⟨h3, h4⟩ := fetch_base h h1
  cases x with
  | none => exact h3
  | some o => exact h3.gain (h4 o rfl).1 (h4 o rfl).2

theorem give_base {o : ω} (h : Base objs s q) (hg : s.give o = .ok s') : Base objs s' q ∧ o ∈ objs ∧ uses s' q o = 0 := by
  unfold give at hg
  split at hg
  · cases hg
  · next hne =>
    cases hg
    have hso := h.single o
    have hmem : o ∈ objs := h.mem (by simp only [uses]; omega)
    simp only [uses, if_pos hmem] at hso
    refine ⟨h.change (h.store.withOutside _) rfl rfl (fun _ _ => rfl) ?_ rfl rfl, hmem, ?_⟩
    · intro o'
      have h7 := h.single o'
      simp only [uses, Pool.release] at h7 ⊢
      by_cases he : o' = o
      · subst he; simp only [if_true] at h7 ⊢; omega
      · simpa only [he, if_false] using h7
    · simp only [uses, Pool.release, if_true]; omega

theorem Base.hold (h : Base objs s q) {o : ω} (ho : o ∈ objs) (hown : uses s q o = 0) : Base objs (s.hold o) q := by
  refine h.change h.store rfl rfl (fun _ _ => rfl) ?_ rfl rfl
  intro o'
  have h7 := h.single o'
  simp only [uses, ES.hold, List.count_cons] at h7 hown ⊢
  by_cases he : o = o'
  · subst he; simp only [beq_self_eq_true, if_true, if_pos ho]; omega
  · simp only [beq_iff_eq, he, if_false]; omega

theorem Base.unhold (h : Base objs s q) (o : ω) : Base objs (s.unhold o) q := by
  refine h.change h.store rfl rfl (fun _ _ => rfl) ?_ rfl rfl
  intro o'
  have h7 := h.single o'
  have h8 : (s.locals.erase o).count o' ≤ s.locals.count o' := (List.erase_sublist).count_le o'
  simp only [uses, ES.unhold] at h7 ⊢; omega

/-- Entries that do not concern the pipeline. -/
theorem Base.note (h : Base objs s q) {t : List (Entry δ H)} {c : Int} (hf : firedKeys t = firedKeys s.trace)
    (hs : scheduledKeys t = scheduledKeys s.trace) : Base objs { s with trace := t, clock := c } q :=
  ⟨h.store, h.full, h.small, h.pipe, h.single, by simp only [hf, hs]; exact h.keys, by simp only [hs]; exact h.seqs⟩

theorem attach_holds {id : Nat} {x : Option H} (h : s.attach b id x = .ok s') : Holds objs s s' := by
  unfold attach at h
  simp only [bind_ok] at h
  obtain ⟨_, _, _, _, v, _, _, _, v', _, h⟩ := h
  rw [res_pure] at h
  obtain rfl := Except.ok.inj h
  exact ⟨rfl, fun q hq => ⟨q, ⟨hq.store, hq.full, hq.small, hq.pipe, hq.single, hq.keys, hq.seqs⟩⟩⟩

theorem exec_holds {call : ES ω δ H → Event δ → Res (ES ω δ H)} {poll : ES ω δ H → Res (ES ω δ H)}
    (hc : ∀ s e s', call s e = .ok s' → Holds objs s s') (hl : ∀ s s', poll s = .ok s' → Holds objs s s') (p : Prog ω δ H) :
    ∀ (s s' : ES ω δ H), s.exec b call poll p = .ok s' → Holds objs s s' := by
  induction p with
  | attach id x k ih =>
    intro s s' h
    rw [exec, bind_ok] at h
    obtain ⟨s1, h1, h2⟩ := h
    exact (attach_holds h1).trans (ih _ _ h2)
  | loop k ih =>
    intro s s' h
    rw [exec, bind_ok] at h
    obtain ⟨s1, h1, h2⟩ := h
    exact (hl _ _ h1).trans (ih _ _ h2)
  | done => intro s s' h; cases h; exact Holds.refl s
  | now k ih => intro s s' h; exact ih s.clock s s' h
  | wait ms k ih =>
    intro s s' h
    refine Holds.trans ?_ (ih _ _ h)
    exact ⟨rfl, fun q hq => ⟨q, hq.change hq.store rfl rfl (fun _ _ => rfl) hq.single rfl rfl⟩⟩
  | schedule id delay data k ih =>
    intro s s' h
    rw [exec, bind_ok] at h
    obtain ⟨s1, h1, h2⟩ := h
    exact (schedule_holds h1).trans (ih _ _ h2)
  | trigger id data k ih =>
    intro s s' h
    rw [exec, bind_ok] at h
    obtain ⟨s1, h1, h2⟩ := h
    refine Holds.trans ?_ (ih _ _ h2)
    unfold triggerId at h1
    rw [bind_ok] at h1
    obtain ⟨⟨x, s0⟩, h3, h1⟩ := h1
    simp only [bind_ok] at h1
    obtain ⟨_, _, o, h4, s2, h5, h6⟩ := h1
    obtain rfl := deref_ok h4
    rw [res_pure] at h6
    obtain rfl := Except.ok.inj h6
    have hF := fetch_grows h3
    obtain ⟨h7, h8⟩ := hc _ _ _ h5
    refine ⟨?_, fun q hq => ?_⟩
    · simp only [ES.unhold, h7, ES.hold, List.erase_cons_head, hF.locals]
    · obtain ⟨h9, h10⟩ := fetch_base hq h3
      obtain ⟨h11, h12⟩ := h10 o rfl
      obtain ⟨q', h13⟩ := h8 q (h9.hold h11 h12)
      exact ⟨q', h13.unhold o⟩
  | event id delay data k ih =>
    intro s s' h
    rw [exec, bind_ok] at h
    obtain ⟨⟨x, s1⟩, h1, h2⟩ := h
    refine Holds.trans ⟨?_, fun q hq => ⟨q, event_base hq h1⟩⟩ (ih _ _ _ h2)
    unfold event at h1
    rw [bind_ok] at h1
    obtain ⟨⟨y, s0⟩, h3, h4⟩ := h1
    cases h4
    exact (fetch_grows h3).locals
  | submit o k ih =>
    intro s s' h
    rw [exec, bind_ok] at h
    obtain ⟨s1, h1, h2⟩ := h
    rw [bind_ok] at h2
    obtain ⟨s2, h3, h4⟩ := h2
    refine Holds.trans ⟨?_, fun q hq => ?_⟩ (ih _ _ h4)
    · exact (enqueue_grows h3).locals.trans (give_keeps (objs := objs) h1).1.locals
    · obtain ⟨h5, h6, h7⟩ := give_base hq h1
      obtain ⟨q', h8, _⟩ := enqueue_base h5 h6 h7 h3
      exact ⟨q', h8⟩
  | drop o k ih =>
    intro s s' h
    rw [exec, bind_ok] at h
    obtain ⟨s1, h1, h2⟩ := h
    exact Holds.trans ⟨(give_keeps (objs := objs) h1).1.locals, fun q hq => ⟨q, (give_base hq h1).1⟩⟩ (ih _ _ h2)

theorem visit_holds {f : ES ω δ H → Option H → Res (ES ω δ H)} (hf : ∀ s x s', f s x = .ok s' → Holds objs s s') {id : Nat} :
    ∀ (n i : Nat) (s s' : ES ω δ H), visit f id n i s = .ok s' → Holds objs s s'
  | 0, i, s, s', h => by cases h; exact Holds.refl s
  | n + 1, i, s, s', h => by
    obtain ⟨_, _, s1, _, _, h1, h2⟩ := visit_step h
    exact (hf _ _ _ h1).trans (visit_holds hf n (i + 1) s1 s' h2)

theorem drain_holds {call : ES ω δ H → Event δ → Res (ES ω δ H)} (hc : ∀ s e s', call s e = .ok s' → Holds objs s s') {depth : Nat} :
    ∀ (fuel : Nat) (s s' : ES ω δ H), s.drainWith b call depth fuel = .ok s' → Holds objs s s'
  | 0, s, s', h => by cases h
  | fuel + 1, s, s', h => by
    obtain ⟨due, pipe, h1, hor⟩ := drain_step h
    rcases hor with ⟨hd, rfl⟩ | ⟨hd, o, pipe', s2, h2, h3, h4⟩
    · refine ⟨rfl, fun q hq => ⟨q, ?_⟩⟩
      obtain ⟨h2, h3, _⟩ := Pipe.containsExpired_any hq.pipe h1
      have : (q.map fun x => (pipe.heap x).key) = q.map fun x => (s.pipe.heap x).key :=
        List.map_congr_left (fun x _ => key_same h3 x)
      exact ⟨hq.store, hq.full, hq.small, h2, hq.single, by simp only [this]; exact hq.keys, hq.seqs⟩
    · obtain ⟨h5, h6⟩ := hc _ _ _ h3
      obtain ⟨h7, h8⟩ := drain_holds hc fuel _ _ h4
      refine ⟨h7.trans (by simp only [ES.unhold, h5, ES.hold, List.erase_cons_head]), fun q hq => ?_⟩
      obtain ⟨h9, h10, h11⟩ := Pipe.containsExpired_any hq.pipe h1
      obtain ⟨x, q', rfl, hx⟩ := h11 hd
      obtain ⟨h12, h13, h14⟩ := Pipe.expire_any h9 hx h2
      obtain rfl := Option.some.inj h12
      have hsame := h10.trans h14
      have hnd := List.nodup_cons.mp hq.pipe.nodup
      have hb : Base objs { s.hold o with pipe := pipe', trace := .fired (pipe'.heap o) s.clock depth :: s.trace } q' := by
        refine ⟨hq.store, hq.full, hq.small, h13, ?_, ?_, hq.seqs⟩
        · intro o'
          have h7 := hq.single o'
          simp only [uses, ES.hold, List.mem_cons, List.count_cons] at h7 ⊢
          by_cases he : o = o'
          · subst he
            simp only [true_or, if_true, beq_self_eq_true, hnd.1, if_false] at h7 ⊢; omega
          · simp only [beq_iff_eq, he, Ne.symm he, false_or, if_false] at h7 ⊢; omega
        · have hk := hq.keys
          have hm : (q'.map fun x => (pipe'.heap x).key) = q'.map fun x => (s.pipe.heap x).key :=
            List.map_congr_left (fun x _ => key_same hsame x)
          simp only [firedKeys, scheduledKeys, hm, key_same hsame o]
          rw [List.map_cons] at hk
          rw [List.cons_append]
          exact List.perm_middle.symm.trans hk
      obtain ⟨q2, h15⟩ := h6 q' hb
      exact h8 q2 (h15.unhold o)

theorem sleep_holds (h : s.sleep b = .ok s') : Holds objs s s' := by
  have key : ∀ ms, Holds objs s (s.sleepFor ms) := fun ms => ⟨rfl, fun q hq => ⟨q, hq.note rfl rfl⟩⟩
  unfold sleep at h
  split at h
  · split at h
    · rw [bind_ok] at h
      obtain ⟨_, _, h⟩ := h
      rw [res_pure] at h; rw [← Except.ok.inj h]; exact key _
    · rw [bind_ok] at h
      obtain ⟨_, _, h⟩ := h
      rw [res_pure] at h; rw [← Except.ok.inj h]; exact key _
  · rw [← Except.ok.inj h]; exact Holds.refl s

theorem loopWith_holds {call : ES ω δ H → Event δ → Res (ES ω δ H)} (hc : ∀ s e s', call s e = .ok s' → Holds objs s s') {depth fuel : Nat}
    (h : s.loopWith b call depth fuel = .ok s') : Holds objs s s' := by
  unfold loopWith at h
  rw [bind_ok] at h
  obtain ⟨s1, h1, h2⟩ := h
  exact (drain_holds hc _ _ _ h1).trans (sleep_holds h2)

theorem trigger_holds {rounds : Nat} : ∀ (fuel depth : Nat) (s : ES ω δ H) (e : Event δ) (s' : ES ω δ H),
    trigger b beh rounds fuel depth s e = .ok s' → Holds objs s s'
  | 0, _, _, _, _, h => by cases h
  | fuel + 1, depth, s, e, s', h => by
    unfold trigger at h
    simp only [bind_ok] at h
    obtain ⟨_, _, v, _, _, _, h⟩ := h
    refine visit_holds (fun s x s' h => ?_) _ _ s s' h
    unfold handle at h
    rw [bind_ok] at h
    obtain ⟨y, _, h⟩ := h
    have ih : ∀ (s : ES ω δ H) e s', trigger b beh rounds fuel (depth + 1) s e = .ok s' → Holds objs s s' :=
      fun s e s' => trigger_holds fuel (depth + 1) s e s'
    refine Holds.trans ?_ (exec_holds ih (fun s s' h => loopWith_holds ih h) _ _ _ h)
    exact ⟨rfl, fun q hq => ⟨q, hq.note rfl rfl⟩⟩

theorem loop_holds {nest fuel : Nat} (h : s.loop b beh nest fuel = .ok s') : Holds objs s s' := loopWith_holds (trigger_holds _ _) h

theorem run_holds {nest fuel : Nat} {p : Prog ω δ H} (h : s.run b beh nest fuel p = .ok s') : Holds objs s s' :=
  exec_holds (trigger_holds _ _) (fun _ _ h => loop_holds h) p s s' h

/-- Every reachable state satisfies the invariant. -/
theorem Reach.base (hnd : objs.Nodup) (hl : objs.length = cfg.eventsCap) (hs : cfg.eventsCap < 2 ^ 16)
    (h : Reach b beh cfg objs s) : ∃ q, Base objs s q ∧ s.locals = [] ∧ s.cfg = cfg := by
  induction h with
  | create hn hc =>
    obtain ⟨s1, h1, h2, h3⟩ := create_inv (b := b) (δ := δ) (H := H) hn hnd hl hs
    rw [hc] at h1
    obtain rfl := Except.ok.inj h1
    refine ⟨[], ⟨h2.store, h2.full, h2.small, ⟨h2.pipe.vec, List.nodup_nil⟩, ?_, h2.keys, h2.seqs⟩, ?_, h3⟩
    · intro o; have := h2.single o; simpa [uses, owners] using this
    · unfold ES.create at hc
      rw [bind_ok] at hc
      obtain ⟨_, _, hc⟩ := hc
      rw [res_pure] at hc; rw [← Except.ok.inj hc]
  | attach _ ha ih =>
    obtain ⟨q, h1, h2, h3⟩ := ih
    obtain ⟨h4, h5⟩ := attach_holds (objs := objs) ha
    obtain ⟨q', h6⟩ := h5 q h1
    exact ⟨q', h6, h4.trans h2, (attach_keeps (objs := objs) ha).1.cfg.trans h3⟩
  | exec _ he ih =>
    obtain ⟨q, h1, h2, h3⟩ := ih
    obtain ⟨h4, h5⟩ := run_holds (objs := objs) he
    obtain ⟨q', h6⟩ := h5 q h1
    exact ⟨q', h6, h4.trans h2, (run_keeps (objs := objs) he).1.cfg.trans h3⟩
  | loop _ he ih =>
    obtain ⟨q, h1, h2, h3⟩ := ih
    obtain ⟨h4, h5⟩ := loop_holds (objs := objs) he
    obtain ⟨q', h6⟩ := h5 q h1
    exact ⟨q', h6, h4.trans h2, (loop_keeps (objs := objs) he).1.cfg.trans h3⟩

/-! ### Counting -/

/-- Pending, held and free objects make up the capacity. -/
theorem Base.count (h : Base objs s q) :
    (objs.filter fun o => uses s q o = 0).length + q.length + (objs.map s.store.outside).sum + s.locals.length = s.cfg.eventsCap := by
  have hnd := h.store.nodup
  have hq : ∀ x ∈ q, x ∈ objs := by
    intro x hx
    exact h.mem (by simp only [uses, if_pos hx]; omega)
  have hl : ∀ o ∈ s.locals, o ∈ objs := by
    intro o ho
    by_contra hc
    have := h.single o
    have := List.count_pos_iff.mpr ho
    simp only [uses, if_neg hc] at *; omega
  have h1 : (objs.map fun o => if o ∈ q then 1 else 0).sum = q.length := by
    have : (objs.filter fun o => decide (o ∈ q)).Perm q := by
      rw [List.perm_ext_iff_of_nodup (hnd.filter _) h.pipe.nodup]
      intro o
      simp only [List.mem_filter, decide_eq_true_eq]
      refine ⟨fun h => h.2, fun ho => ⟨?_, ho⟩⟩
      exact hq o ho
    have hlen := this.length_eq
    rw [← hlen, ← List.countP_eq_length_filter]
    clear this hlen hq hl hnd h
    induction objs with
    | nil => rfl
    | cons a l ih => rw [List.map_cons, List.sum_cons, ih, List.countP_cons]; simp only [decide_eq_true_eq]; omega
  have h2 : (objs.map fun o => s.locals.count o).sum = s.locals.length := by
    have hsub : ∀ (l : List ω), (∀ o ∈ l, o ∈ objs) → (objs.map fun o => l.count o).sum = l.length := by
      intro l
      induction l with
      | nil => intro _; simp
      | cons a l ih =>
        intro hl
        have h3 := ih (fun o ho => hl o (by simp [ho]))
        have h4 : (objs.map fun o => (a :: l).count o).sum = (objs.map fun o => l.count o).sum + (objs.map fun o => if a = o then 1 else 0).sum := by
          clear h3 ih h1 hq hnd h
          rename_i hlo
          clear hl hlo
          induction objs with
          | nil => rfl
          | cons x xs ih =>
            simp only [List.map_cons, List.sum_cons]
            rw [ih, List.count_cons]; simp only [beq_iff_eq]; omega
        have h5 : (objs.map fun o => if a = o then 1 else 0).sum = objs.count a := by
          clear h3 h4 ih h1 hq hnd h
          rename_i hlo
          clear hl hlo
          induction objs with
          | nil => rfl
          | cons x xs ih =>
            simp only [List.map_cons, List.sum_cons]
            rw [ih, List.count_cons]
            by_cases hax : a = x
            · subst hax; simp; omega
            · simp [hax, Ne.symm hax]
        rw [h4, h3, h5, List.Nodup.count hnd, if_pos (hl a (by simp))]; rfl
    exact hsub s.locals hl
  have h3 : (objs.filter fun o => uses s q o = 0).length + (objs.map (uses s q)).sum = objs.length := by
    have hs : ∀ o ∈ objs, uses s q o ≤ 1 := fun o ho => by have := h.single o; rwa [if_pos ho] at this
    clear h1 h2 hq hl hnd h
    induction objs with
    | nil => rfl
    | cons a l ih =>
      have ih := ih (fun o ho => hs o (by simp [ho]))
      have ha := hs a (by simp)
      rw [List.filter_cons, List.map_cons, List.sum_cons, List.length_cons]
      by_cases h0 : uses s q a = 0
      · simp only [h0, decide_true, if_true, List.length_cons]; omega
      · simp only [h0, decide_false, Bool.false_eq_true, if_false]; omega
  have h4 : (objs.map (uses s q)).sum = (objs.map fun o => if o ∈ q then 1 else 0).sum + (objs.map s.store.outside).sum
      + (objs.map fun o => s.locals.count o).sum := by
    clear h1 h2 h3 hq hl hnd h
    induction objs with
    | nil => rfl
    | cons a l ih => simp only [List.map_cons, List.sum_cons]; rw [ih]; simp only [uses]; omega
  rw [← h.full]; omega

end ES
end Spine
