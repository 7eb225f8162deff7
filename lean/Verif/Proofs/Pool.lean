import Verif.Model.Pool
import Verif.Proofs.VectorSeq
/-! # Lemmas about the pool model -/

namespace Spine.Pool

variable {ω : Type} [DecidableEq ω] {b : Build}

attribute [local irreducible] usub uadd sizeMod

theorem slotRefs_eq (o : ω) (log : List (Ev (Option ω))) : slotRefs o log = Seq.owned (some o) log := by
  induction log with
  | nil => rfl
  | cons e log ih => cases e <;> simp [slotRefs, Seq.owned, ih]

theorem count_beq (o : Option ω) (q : List (Option ω)) :
    @List.count (Option ω) instBEqOfDecidableEq o q = q.count o := by
  unfold List.count
  apply List.countP_congr
  intro x _
  rw [@beq_iff_eq _ instBEqOfDecidableEq, beq_iff_eq]

/-- The pool holds the distinct objects `q`, and its slots own one reference to each. -/
structure Rep (n : Nat) (p : Pool ω) (q : List ω) : Prop where
  vec : Vec.Exact (sharedPtr ω) n p.vec (q.map some)
  nodup : q.Nodup
  lookup : p.lookup < 2 ^ 16

variable {n : Nat} {p : Pool ω} {q : List ω}

theorem Rep.size (h : Rep n p q) : p.vec.size = q.length := by
  have := h.vec.rep.holds.1; simpa using this

theorem Rep.lt (h : Rep n p q) : q.length ≤ n ∧ n < sizeMod := by
  obtain ⟨pre, post, log, _, h1, h2, _⟩ := h.vec
  simp at h1; omega

theorem Rep.full (h : Rep n p q) : p.vec.full = (q.length == n) := by
  simp only [Vec.full, h.size, h.vec.rep.maxSize]

theorem Rep.empty (h : Rep n p q) : p.vec.empty = (q.length == 0) := by
  simp only [Vec.empty, h.size]

theorem Rep.get (h : Rep n p q) {i : Nat} (hi : i < q.length) : p.vec.get b i = .ok (some q[i]) := by
  have h1 := h.vec.rep.holds.2 i (by simpa using hi)
  simp only [List.getElem_map] at h1
  cases b with
  | debug => exact h1
  | release =>
    unfold Vec.get at h1 ⊢
    by_cases hc : p.vec.head + i < p.vec.tail
    · simpa [hc] using h1
    · simp [hc] at h1

theorem Rep.refs (h : Rep n p q) (o : ω) : slotRefs o p.vec.log = if o ∈ q then 1 else 0 := by
  obtain ⟨pre, post, log, hv, _, _, _, ho⟩ := h.vec
  have h1 := ho (some o) (by simp)
  rw [slotRefs_eq, hv]
  simp only [Vec.mk']
  rw [h1, count_beq]
  have hn : (q.map some).Nodup := by
    have := h.nodup
    unfold List.Nodup at this ⊢
    rw [List.pairwise_map]
    exact this.imp (fun hne he => hne (Option.some.inj he))
  split
  · next hm => rw [List.Nodup.count hn]; simp [hm]
  · next hm => rw [List.Nodup.count hn]; simp [hm]

theorem Rep.useCount (h : Rep n p q) {i : Nat} (hi : i < q.length) :
    p.useCount (some q[i]) = 1 ↔ p.outside q[i] = 0 := by
  simp only [Pool.useCount, h.refs, List.getElem_mem, if_true]; omega

theorem Rep.withLookup (h : Rep n p q) {k : Nat} (hk : k < 2 ^ 16) : Rep n { p with lookup := k } q :=
  ⟨h.vec, h.nodup, hk⟩

theorem Rep.withOutside (h : Rep n p q) (f : ω → Nat) : Rep n { p with outside := f } q := ⟨h.vec, h.nodup, h.lookup⟩

theorem scanBack_spec (hlen : q.length < 2 ^ 16) : ∀ (fuel : Nat) (p : Pool ω), Rep n p q → q.length - p.lookup < fuel →
    ∃ found k, p.scanBack b fuel = .ok (found, { p with lookup := k }) ∧ k < 2 ^ 16 ∧
      match found with
      | some x => ∃ o ∈ q, x = some o ∧ p.outside o = 0
      | none => ∀ i (hi : i < q.length), p.lookup ≤ i → p.outside q[i] ≠ 0
  | 0, _, _, h => by omega
  | fuel + 1, p, hr, h => by
    unfold scanBack
    by_cases hl : p.lookup < q.length
    · rw [if_pos (by rw [hr.size]; exact hl), hr.get hl, res_bind_ok]
      by_cases hf : p.useCount (some q[p.lookup]) = 1
      · rw [if_pos hf]
        exact ⟨some (some q[p.lookup]), p.lookup, rfl, hr.lookup, q[p.lookup], List.getElem_mem _, rfl, (hr.useCount hl).mp hf⟩
      · rw [if_neg hf]
        have hmod : (p.lookup + 1) % 2 ^ 16 = p.lookup + 1 := Nat.mod_eq_of_lt (by omega)
        rw [hmod]
        obtain ⟨found, k, h1, h2, h3⟩ := scanBack_spec hlen fuel { p with lookup := p.lookup + 1 }
          (hr.withLookup (by omega)) (by simp; omega)
        refine ⟨found, k, h1, h2, ?_⟩
        cases found with
        | some x => exact h3
        | none =>
          intro i hi hle
          by_cases heq : p.lookup = i
          · subst heq; exact fun h0 => hf ((hr.useCount hi).mpr h0)
          · exact h3 i hi (by simp; omega)
    · rw [if_neg (by rw [hr.size]; exact hl)]
      exact ⟨none, p.lookup, rfl, hr.lookup, fun i hi hle => by omega⟩

theorem scanFront_spec (skipped : Nat) (hr : Rep n p q) : ∀ (fuel i : Nat), q.length - i < fuel →
    ∃ found, p.scanFront b skipped i fuel = .ok found ∧
      match found with
      | some x => ∃ o ∈ q, x = some o ∧ p.outside o = 0
      | none => ∀ j (hj : j < q.length), i ≤ j → j < skipped → p.outside q[j] ≠ 0
  | 0, _, h => by omega
  | fuel + 1, i, h => by
    unfold scanFront
    by_cases hl : i < skipped ∧ i < q.length
    · rw [if_pos (by rw [hr.size]; exact hl), hr.get hl.2, res_bind_ok]
      by_cases hf : p.useCount (some q[i]) = 1
      · rw [if_pos hf]
        exact ⟨some (some q[i]), rfl, q[i], List.getElem_mem _, rfl, (hr.useCount hl.2).mp hf⟩
      · rw [if_neg hf]
        obtain ⟨found, h1, h3⟩ := scanFront_spec skipped hr fuel (i + 1) (by omega)
        refine ⟨found, h1, ?_⟩
        cases found with
        | some x => exact h3
        | none =>
          intro j hj hle hs
          by_cases heq : i = j
          · subst heq; exact fun h0 => hf ((hr.useCount hj).mpr h0)
          · exact h3 j hj (by omega) hs
    · rw [if_neg (by rw [hr.size]; exact hl)]
      exact ⟨none, rfl, fun j hj hle hs => by omega⟩

theorem acquire_spec (hr : Rep n p q) (hlen : q.length < 2 ^ 16) (hb : b = .release ∨ q.length = n) (fuel : Nat)
    (hfuel : q.length < fuel) :
    ∃ r p', p.acquire b fuel = .ok (r, p') ∧ Rep n p' q ∧
      match r with
      | some o => o ∈ q ∧ p.outside o = 0 ∧ p'.outside = (p.gain (some o)).outside
      | none => (∀ o ∈ q, p.outside o ≠ 0) ∧ p'.outside = p.outside := by
  have hassert : spnAssert b p.isFullyPopulated = .ok () := by
    rcases hb with rfl | hb
    · simp
    · simp [isFullyPopulated, hr.full, hb]
  unfold acquire
  rw [hassert, res_bind_ok]
  obtain ⟨found, k, h1, h2, h3⟩ := scanBack_spec (b := b) hlen fuel p hr (by omega)
  simp only [h1, res_bind_ok]
  cases found with
  | some x =>
    obtain ⟨o, ho, rfl, hz⟩ := h3
    exact ⟨some o, _, rfl, (hr.withLookup h2).withOutside _, ho, hz, rfl⟩
  | none =>
    obtain ⟨found, h4, h5⟩ := scanFront_spec (b := b) p.lookup (hr.withLookup (k := 0) (by omega)) fuel 0 (by omega)
    simp only [h4, res_bind_ok]
    cases found with
    | some x =>
      obtain ⟨o, ho, rfl, hz⟩ := h5
      exact ⟨some o, _, rfl, (hr.withLookup (k := 0) (by omega)).withOutside _, ho, hz, rfl⟩
    | none =>
      refine ⟨none, _, rfl, hr.withLookup (by omega), ?_, rfl⟩
      intro o ho
      obtain ⟨i, hi, rfl⟩ := List.getElem_of_mem ho
      by_cases hlt : i < p.lookup
      · exact h5 i hi (by omega) hlt
      · exact h3 i hi (by omega)

/-- With at least 2^16 objects, all in use, the first loop of `acquire` never ends. -/
theorem scanBack_stuck (hlen : 2 ^ 16 ≤ q.length) (hall : ∀ o ∈ q, p.outside o ≠ 0) : ∀ (fuel : Nat) (p' : Pool ω),
    Rep n p' q → p'.outside = p.outside → p'.scanBack b fuel = .error .fuel
  | 0, _, _, _ => rfl
  | fuel + 1, p', hr, ho => by
    unfold scanBack
    have hl : p'.lookup < q.length := Nat.lt_of_lt_of_le hr.lookup hlen
    rw [if_pos (by rw [hr.size]; exact hl), hr.get hl, res_bind_ok]
    have hf : ¬ p'.useCount (some q[p'.lookup]) = 1 := by
      rw [hr.useCount hl, ho]; exact hall _ (List.getElem_mem _)
    rw [if_neg hf]
    exact scanBack_stuck hlen hall fuel _ (hr.withLookup (Nat.mod_lt _ (by omega))) ho

theorem scanBack_found : ∀ (fuel : Nat) (p : Pool ω) {found : Option (Option ω)} {p' : Pool ω}, Rep n p q →
    p.scanBack b fuel = .ok (found, p') → (∃ k, p' = { p with lookup := k } ∧ k < 2 ^ 16) ∧
      ∀ x, found = some x → ∃ o ∈ q, x = some o ∧ p.outside o = 0
  | 0, _, _, _, _, h => by cases h
  | fuel + 1, p, found, p', hr, h => by
    unfold scanBack at h
    split at h
    · next hl =>
      rw [hr.size] at hl
      rw [hr.get hl, res_bind_ok] at h
      split at h
      · next hf =>
        rw [res_pure] at h; cases h
        refine ⟨⟨p.lookup, rfl, hr.lookup⟩, ?_⟩
        rintro x ⟨⟩
        exact ⟨_, List.getElem_mem _, rfl, (hr.useCount hl).mp hf⟩
      · obtain ⟨⟨k, h1, h2⟩, h3⟩ := scanBack_found fuel _ (hr.withLookup (Nat.mod_lt _ (by omega))) h
        exact ⟨⟨k, h1, h2⟩, h3⟩
    · rw [res_pure] at h; cases h
      exact ⟨⟨p.lookup, rfl, hr.lookup⟩, by simp⟩

theorem scanFront_found (hr : Rep n p q) (skipped : Nat) : ∀ (fuel i : Nat) {x : Option ω},
    p.scanFront b skipped i fuel = .ok (some x) → ∃ o ∈ q, x = some o ∧ p.outside o = 0
  | 0, _, _, h => by cases h
  | fuel + 1, i, x, h => by
    unfold scanFront at h
    split at h
    · next hl =>
      rw [hr.size] at hl
      rw [hr.get hl.2, res_bind_ok] at h
      split at h
      · next hf =>
        rw [res_pure] at h; cases h
        exact ⟨_, List.getElem_mem _, rfl, (hr.useCount hl.2).mp hf⟩
      · exact scanFront_found hr skipped fuel (i + 1) h
    · rw [res_pure] at h; cases h

/-- Whatever `acquire` returns, for pools of any size. -/
theorem acquire_found (hr : Rep n p q) {fuel : Nat} {r : Option ω} {p' : Pool ω} (h : p.acquire b fuel = .ok (r, p')) :
    Rep n p' q ∧ ∀ o, r = some o → o ∈ q ∧ p.outside o = 0 := by
  unfold acquire at h
  cases ha : spnAssert b p.isFullyPopulated with
  | error e => rw [ha] at h; cases h
  | ok u =>
    rw [ha, res_bind_ok] at h
    simp only at h
    cases hs : p.scanBack b fuel with
    | error e => rw [hs] at h; cases h
    | ok f =>
      obtain ⟨found, p1⟩ := f
      rw [hs, res_bind_ok] at h
      obtain ⟨⟨k, rfl, hk⟩, hf⟩ := scanBack_found fuel p hr hs
      cases found with
      | some x =>
        simp only [res_pure] at h; cases h
        obtain ⟨o, h1, rfl, h2⟩ := hf _ rfl
        refine ⟨(hr.withLookup hk).withOutside _, ?_⟩
        rintro o' ⟨⟩; exact ⟨h1, h2⟩
      | none =>
        simp only at h
        have hr0 := hr.withLookup (k := 0) (by omega)
        cases hs2 : scanFront b { p with lookup := 0 } p.lookup 0 fuel with
        | error e => rw [hs2] at h; cases h
        | ok f2 =>
          rw [hs2, res_bind_ok] at h
          cases f2 with
          | some x =>
            simp only [res_pure] at h; cases h
            obtain ⟨o, h1, rfl, h2⟩ := scanFront_found hr0 p.lookup fuel 0 hs2
            refine ⟨hr0.withOutside _, ?_⟩
            rintro o' ⟨⟩; exact ⟨h1, h2⟩
          | none =>
            simp only [res_pure] at h; cases h
            exact ⟨hr0, by simp⟩

theorem populate_spec (hr : Rep n p q) {o : ω} (ho : o ∉ q) (hroom : q.length < n) :
    ∃ p', p.populate b o = .ok p' ∧ Rep n p' (q ++ [o]) ∧ p'.outside = p.outside := by
  obtain ⟨v', h1, h2⟩ := hr.vec.step (b := b) (op := .emplaceBack (some o)) (o := .unit) (q' := (q ++ [o]).map some)
    (fun _ => rfl) (by simp [Seq.step, hroom]) trivial trivial
  simp only [Vec.step] at h1
  cases hv : p.vec.emplaceBack b (sharedPtr ω) (some o) with
  | error e => rw [hv] at h1; cases h1
  | ok v =>
    rw [hv, res_bind_ok, res_pure] at h1
    obtain rfl := (Prod.mk.inj (Except.ok.inj h1)).2
    refine ⟨{ p with vec := v }, ?_, ⟨h2, ?_, hr.lookup⟩, rfl⟩
    · have : p.vec.full = false := by rw [hr.full]; simp; omega
      simp only [populate, this, Bool.not_false, spnAssert_true, res_bind_ok, hv, res_pure]
    · rw [List.nodup_append]
      exact ⟨hr.nodup, by simp, by intro a ha c hc; simp at hc; subst hc; rintro rfl; exact ho ha⟩

theorem depopulate_spec {o : ω} (hr : Rep n p (o :: q)) :
    ∃ v', p.depopulate b = .ok (some o, gain { p with vec := v' } (some o)) ∧ Rep n { p with vec := v' } q := by
  obtain ⟨v', h1, h2⟩ := hr.vec.step (b := b) (op := .popFront true) (o := .val (some o)) (q' := q.map some)
    (fun _ => rfl) (by simp [Seq.step]) trivial rfl
  simp only [Vec.step] at h1
  cases hv : p.vec.popFront b (sharedPtr ω) true with
  | error e => rw [hv] at h1; cases h1
  | ok r =>
    obtain ⟨x, v⟩ := r
    rw [hv, res_bind_ok, res_pure] at h1
    obtain ⟨h3, rfl⟩ := Prod.mk.inj (Except.ok.inj h1)
    obtain rfl := Vec.Out.val.inj h3
    refine ⟨v, ?_, ⟨h2, (List.nodup_cons.mp hr.nodup).2, hr.lookup⟩⟩
    have : p.vec.empty = false := by rw [hr.empty]; simp
    simp only [depopulate, this, Bool.not_false, spnAssert_true, res_bind_ok, hv, res_pure]

theorem Rep.create (hn : n < sizeMod) (outside : ω → Nat) : Rep n (create n outside) [] :=
  ⟨⟨[], List.replicate n none, [], by simp [Pool.create, Vec.create, Vec.mk'], by simp, hn, by simp, by simp [Seq.owned]⟩,
    List.nodup_nil, by simp [Pool.create]⟩

theorem release_gain (p : Pool ω) (o : ω) : release (gain p (some o)) o = p := by
  simp only [release, gain]
  congr 1
  funext x
  split <;> simp_all

/-- The loop of `~Pool` stops half-way, where the growing index meets the shrinking size. -/
theorem destroyLoop_spec : ∀ (fuel : Nat) (p : Pool ω) (q : List ω) (i : Nat), Rep n p q → q.length - i < fuel →
    ∃ v', p.destroyLoop b i fuel = .ok { p with vec := v' } ∧ Rep n { p with vec := v' } (q.drop ((q.length - i + 1) / 2))
  | 0, _, _, _, _, h => by omega
  | fuel + 1, p, q, i, hr, h => by
    unfold destroyLoop
    by_cases hi : i < q.length
    · rw [if_pos (by rw [hr.size]; exact hi)]
      cases q with
      | nil => simp at hi
      | cons o q =>
        obtain ⟨v, h1, h2⟩ := depopulate_spec (b := b) hr
        simp only [h1, res_bind_ok, release_gain]
        obtain ⟨v', h3, h4⟩ := destroyLoop_spec fuel { p with vec := v } q (i + 1) h2 (by
          simp only [List.length_cons] at h hi; omega)
        refine ⟨v', h3, ?_⟩
        have hd : ((o :: q).length - i + 1) / 2 = (q.length - (i + 1) + 1) / 2 + 1 ∨
            (q.length ≤ i ∧ ((o :: q).length - i + 1) / 2 = 1) := by
          simp only [List.length_cons] at hi ⊢; omega
        rcases hd with hd | ⟨hq, hd⟩
        · rw [hd, List.drop_succ_cons]; exact h4
        · rw [hd, List.drop_succ_cons, List.drop_zero]
          have : (q.length - (i + 1) + 1) / 2 = 0 := by omega
          rw [this, List.drop_zero] at h4; exact h4
    · rw [if_neg (by rw [hr.size]; exact hi)]
      refine ⟨p.vec, rfl, ?_⟩
      have : (q.length - i + 1) / 2 = 0 := by omega
      rw [this, List.drop_zero]; exact hr

end Spine.Pool
