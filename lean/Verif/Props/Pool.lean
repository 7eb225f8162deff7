import Verif.Proofs.Pool
/-!
# Properties C28-C30, C64 and C73: `Pool` and `Stack`

`Pool.Trace b n q p` says that a program can bring a pool of capacity `n` into the state `p`, and that, reading the
calls it made as calls on a plain list, the pool then contains the objects `q`.  `p.outside o` is the number of
handles to `o` that the rest of the program holds.
-/

namespace Spine

variable {ω : Type} [DecidableEq ω] {b : Build} {n : Nat}

/-- Histories of a pool.  Objects are put into the pool once, while there is room, and taken out while there are
any; handles are duplicated and dropped at will. -/
inductive Pool.Trace (b : Build) (n : Nat) : List ω → Pool ω → Prop
  | create (outside : ω → Nat) : Trace b n [] (Pool.create n outside)
  | populate {q p o p'} : Trace b n q p → o ∉ q → q.length < n → p.populate b o = .ok p' → Trace b n (q ++ [o]) p'
  | depopulate {q p o x p'} : Trace b n (o :: q) p → p.depopulate b = .ok (x, p') → Trace b n q p'
  | acquire {q p fuel x p'} : Trace b n q p → p.acquire b fuel = .ok (x, p') → Trace b n q p'
  | share {q p} (o : ω) : Trace b n q p → p.outside o ≠ 0 → Trace b n q (p.gain (some o))
  | release {q p} (o : ω) : Trace b n q p → p.outside o ≠ 0 → Trace b n q (p.release o)

theorem Pool.Trace.rep (hn : n < sizeMod) {q : List ω} {p : Pool ω} (h : Pool.Trace b n q p) : Pool.Rep n p q := by
  have hn' : n < sizeMod := hn
  induction h with
  | create outside => exact Pool.Rep.create hn' outside
  | populate _ ho hroom hp ih =>
    obtain ⟨p1, h1, h2, _⟩ := Pool.populate_spec (b := b) ih ho hroom
    rw [h1] at hp; cases hp; exact h2
  | depopulate _ hp ih =>
    obtain ⟨v, h1, h2⟩ := Pool.depopulate_spec (b := b) ih
    rw [h1] at hp; cases hp; exact h2.withOutside _
  | acquire _ hp ih => exact (Pool.acquire_found ih hp).1
  | share o _ _ ih => exact ih.withOutside _
  | release o _ _ ih => exact ih.withOutside _

/-! ## C28 -/

/-- C28. `acquire` hands out an object of the pool that nobody outside the pool holds; it returns a null
pointer only if every object is held by somebody.  It leaves the pool's contents alone.  (Debug builds require a
fully populated pool; the bound of 65535 objects is C29.) -/
theorem C28_acquire {q : List ω} {p : Pool ω} (hp : Pool.Trace b n q p) (hn : n < sizeMod) (hlen : q.length ≤ 65535)
    (hb : b = .release ∨ q.length = n) :
    ∃ r p', p.acquire b (q.length + 1) = .ok (r, p') ∧ p'.vec.Holds (q.map some) ∧
      match r with
      | some o => o ∈ q ∧ p.outside o = 0 ∧ p'.outside o = 1 ∧ ∀ x, x ≠ o → p'.outside x = p.outside x
      | none => (∀ o ∈ q, p.outside o ≠ 0) ∧ p'.outside = p.outside := by
  obtain ⟨r, p', h1, h2, h3⟩ := Pool.acquire_spec (b := b) (hp.rep hn) (by omega) hb (q.length + 1) (by omega)
  refine ⟨r, p', h1, h2.vec.rep.holds, ?_⟩
  cases r with
  | none => exact h3
  | some o =>
    obtain ⟨h4, h5, h6⟩ := h3
    refine ⟨h4, h5, ?_, fun x hx => ?_⟩
    · rw [h6]; simp [Pool.gain, h5]
    · rw [h6]; simp [Pool.gain, hx]

/-- C28, exclusive use: between the `acquire` that handed out `o` and the moment its last handle is dropped,
no `acquire` returns `o` again, in pools of any size. -/
theorem C28_exclusive {q : List ω} {p : Pool ω} (hp : Pool.Trace b n q p) (hn : n < sizeMod)
    {o : ω} (hheld : p.outside o ≠ 0) (fuel : Nat) (p' : Pool ω) : p.acquire b fuel ≠ .ok (some o, p') := by
  intro h
  exact hheld ((Pool.acquire_found (hp.rep hn) h).2 o rfl).2

/-! ## C29 -/

/-- C29 (partial). With at most 65535 objects, `acquire` finishes: each of its two loops ends after at most one round
per object. Missing: larger pools (`C29_acquire_diverges_counterexample`). -/
theorem C29_acquire_terminates_partial {q : List ω} {p : Pool ω} (hp : Pool.Trace b n q p) (hn : n < sizeMod)
    (hlen : q.length ≤ 65535) (hb : b = .release ∨ q.length = n) (fuel : Nat) (hfuel : q.length < fuel) :
    ∃ r, p.acquire b fuel = .ok r := by
  obtain ⟨r, p', h1, _⟩ := Pool.acquire_spec (b := b) (hp.rep hn) (by omega) hb fuel hfuel
  exact ⟨_, h1⟩

/-- C29 is false for larger pools: with 65536 or more objects, all in use, the 16 bit index wraps around before it
reaches the size, and the loop goes on whatever the number of rounds allowed. -/
theorem C29_acquire_diverges_counterexample {q : List ω} {p : Pool ω} (hp : Pool.Trace b n q p) (hn : n < sizeMod)
    (hlen : 65536 ≤ q.length) (hfull : q.length = n) (hall : ∀ o ∈ q, p.outside o ≠ 0) (fuel : Nat) :
    p.acquire b fuel = .error .fuel := by
  have hr := hp.rep hn
  have hf : p.isFullyPopulated = true := by simp [Pool.isFullyPopulated, hr.full, hfull]
  simp only [Pool.acquire, hf, spnAssert_true, res_bind_ok]
  rw [Pool.scanBack_stuck hlen hall fuel p hr rfl]
  rfl

/-- Pools of every size, with every pattern of outside handles, exist: populate an empty one. -/
theorem Pool.exists_trace (hn : n < sizeMod) (q : List ω) (hq : q.Nodup) (hlen : q.length ≤ n) (outside : ω → Nat) :
    ∃ p, Pool.Trace b n q p ∧ p.outside = outside := by
  suffices h : ∀ k, k ≤ q.length → ∃ p, Pool.Trace b n (q.take k) p ∧ p.outside = outside by
    obtain ⟨p, h1⟩ := h q.length (Nat.le_refl _)
    rw [List.take_length] at h1; exact ⟨p, h1⟩
  intro k
  induction k with
  | zero => exact fun _ => ⟨_, .create outside, rfl⟩
  | succ k ih =>
    intro hk
    obtain ⟨p, h1, h2⟩ := ih (by omega)
    have hk' : k < q.length := by omega
    have hmem : q[k] ∉ q.take k := by
      have h3 := hq
      rw [← List.take_append_drop k q, List.drop_eq_getElem_cons hk', List.nodup_append] at h3
      intro hm; exact h3.2.2 _ hm _ List.mem_cons_self rfl
    have hroom : (q.take k).length < n := by simp; omega
    obtain ⟨p', h3, _, h4⟩ := Pool.populate_spec (b := b) (h1.rep hn) hmem hroom
    refine ⟨p', ?_, h4.trans h2⟩
    rw [List.take_succ_eq_append_getElem hk']
    exact .populate h1 hmem hroom h3

/-- Non-vacuity of C28 and of the partial C29: three objects, the second in use; the first is handed out. -/
example : ∃ p p' : Pool Nat, Pool.Trace b 3 [10, 11, 12] p ∧ p.outside 11 = 1 ∧ p.acquire b 4 = .ok (some 10, p') := by
  cases b
  · refine ⟨_, _, .populate (.populate (.populate (.create fun o => if o = 11 then 1 else 0) ?_ ?_ rfl) ?_ ?_ rfl) ?_ ?_ rfl, rfl, rfl⟩ <;> decide
  · refine ⟨_, _, .populate (.populate (.populate (.create fun o => if o = 11 then 1 else 0) ?_ ?_ rfl) ?_ ?_ rfl) ?_ ?_ rfl, rfl, rfl⟩ <;> decide

/-- Non-vacuity of the counterexample: a pool of 65536 objects that are all in use. -/
example : ∃ p : Pool Nat, Pool.Trace b 65536 (List.range 65536) p ∧ (∀ o ∈ List.range 65536, p.outside o ≠ 0) ∧
    ∀ fuel, p.acquire b fuel = .error .fuel := by
  have hs := sizeMod_ge
  obtain ⟨p, h1, h2⟩ := Pool.exists_trace (b := b) (n := 65536) (by omega) (List.range 65536) List.nodup_range
    (by rw [List.length_range]; omega) (fun _ => 1)
  have h3 : ∀ o ∈ List.range 65536, p.outside o ≠ 0 := fun o _ => by rw [h2]; exact Nat.one_ne_zero
  exact ⟨p, h1, h3, C29_acquire_diverges_counterexample h1 (by omega) (by rw [List.length_range]; omega) List.length_range h3⟩

/-! ## C30 -/

/-- C30 (partial). A pool of at most one object is destroyed without failing assertion, and releases its object.
Missing: more objects (`C30_destroy_asserts_counterexample`, `C30_destroy_leaks_counterexample`). -/
theorem C30_destroy_partial {q : List ω} {p : Pool ω} (hp : Pool.Trace b n q p) (hn : n < sizeMod) (hlen : q.length ≤ 1) :
    ∃ p', p.destroy b (q.length + 1) = .ok p' ∧ p'.outside = p.outside ∧ ∀ o, slotRefs o p'.vec.log = 0 := by
  obtain ⟨v, h1, h2⟩ := Pool.destroyLoop_spec (b := b) (q.length + 1) p q 0 (hp.rep hn) (by omega)
  have h3 : q.drop ((q.length - 0 + 1) / 2) = [] := by
    apply List.drop_eq_nil_of_le; omega
  rw [h3] at h2
  refine ⟨{ p with vec := v }, ?_, rfl, fun o => by rw [h2.refs]; simp⟩
  simp only [Pool.destroy, h1, res_bind_ok, h2.empty]
  simp

/-- C30 is false: in a debug build the assertion in the destructor fails for every pool of two or more objects. -/
theorem C30_destroy_asserts_counterexample {q : List ω} {p : Pool ω} (hp : Pool.Trace .debug n q p) (hn : n < sizeMod)
    (hlen : 2 ≤ q.length) (fuel : Nat) (hfuel : q.length < fuel) : p.destroy .debug fuel = .error .assertFailed := by
  obtain ⟨v, h1, h2⟩ := Pool.destroyLoop_spec (b := .debug) fuel p q 0 (hp.rep hn) (by omega)
  simp only [Pool.destroy, h1, res_bind_ok, h2.empty]
  have : ((q.drop ((q.length - 0 + 1) / 2)).length == 0) = false := by
    simp; omega
  rw [this]; rfl

/-- C30 is false: in a release build the destructor gives up only the first half of the objects (rounded up); the
references to the others are never released. -/
theorem C30_destroy_leaks_counterexample {q : List ω} {p : Pool ω} (hp : Pool.Trace .release n q p) (hn : n < sizeMod) :
    ∃ p', p.destroy .release (q.length + 1) = .ok p' ∧
      ∀ o, slotRefs o p'.vec.log = if o ∈ q.drop ((q.length + 1) / 2) then 1 else 0 := by
  obtain ⟨v, h1, h2⟩ := Pool.destroyLoop_spec (b := .release) (q.length + 1) p q 0 (hp.rep hn) (by omega)
  refine ⟨{ p with vec := v }, ?_, fun o => h2.refs o⟩
  simp only [Pool.destroy, h1, res_bind_ok, spnAssert_release, res_pure]

/-! ## C64 -/

/-- Calls on a stack. -/
inductive Stk.Op (α : Type)
  | push (x : α)
  | pop
  | top
  | size
  | empty
  deriving DecidableEq

/-- Run a call on the model. -/
def Stk.step {α : Type} (b : Build) (e : Elem α) (s : Stk α) : Stk.Op α → Res (Vec.Out α × Stk α)
  | .push x => do return (.unit, ← s.push b e x)
  | .pop => do return (.unit, ← s.pop b e)
  | .top => do return (.val (← s.top b), s)
  | .size => .ok (.num s.size, s)
  | .empty => .ok (.bool s.empty, s)

/-- Run a history on the model. -/
def Stk.run {α : Type} (b : Build) (e : Elem α) (s : Stk α) : List (Stk.Op α) → Res (List (Vec.Out α) × Stk α)
  | [] => .ok ([], s)
  | op :: ops => do
    let (o, s) ← s.step b e op
    let (os, s) ← s.run b e ops
    return (o :: os, s)

/-- Specification: a last-in first-out list (top first) of at most `n` elements; `none` when a call breaks its
precondition. -/
def lifo {α : Type} (n : Nat) : List α → List (Stk.Op α) → Option (List (Vec.Out α))
  | _, [] => some []
  | st, .push x :: ops => if st.length < n then (lifo n (x :: st) ops).map (.unit :: ·) else none
  | _ :: st, .pop :: ops => (lifo n st ops).map (.unit :: ·)
  | x :: st, .top :: ops => (lifo n (x :: st) ops).map (.val x :: ·)
  | st, .size :: ops => (lifo n st ops).map (.num st.length :: ·)
  | st, .empty :: ops => (lifo n st ops).map (.bool (st.length == 0) :: ·)
  | [], .pop :: _ => none
  | [], .top :: _ => none

theorem Stk.run_spec {α : Type} {e : Elem α} (ops : List (Stk.Op α)) : ∀ (s : Stk α) (st : List α) (outs : List (Vec.Out α)),
    Vec.Rep n s.store st.reverse → s.store.head = 0 → lifo n st ops = some outs → ∃ s', s.run b e ops = .ok (outs, s') := by
  induction ops with
  | nil => intro s st outs _ _ h; simp only [lifo, Option.some.injEq] at h; subst h; exact ⟨s, rfl⟩
  | cons op ops ih =>
    intro s st outs hr h0 h
    cases op with
    | push x =>
      simp only [lifo] at h
      split at h
      · next hroom =>
        obtain ⟨os, h1, rfl⟩ := Option.map_eq_some_iff.mp h
        obtain ⟨v, h2, h3, h4⟩ := hr.step (b := b) (e := e) (op := .emplaceBack x) (o := .unit) (q' := (x :: st).reverse)
          (by simp [Seq.step, hroom]) trivial
        simp only [Vec.step] at h2
        cases hv : s.store.emplaceBack b e x with
        | error er => rw [hv] at h2; cases h2
        | ok w =>
          rw [hv, res_bind_ok, res_pure] at h2
          obtain rfl := (Prod.mk.inj (Except.ok.inj h2)).2
          simp only [Stk.run, Stk.step, Stk.push, hv, res_bind_ok, res_pure]
          obtain ⟨s', hs'⟩ := ih ⟨w⟩ (x :: st) os h3 (h4 h0 trivial) h1
          exact ⟨s', by rw [hs']; rfl⟩
      · cases h
    | pop =>
      cases st with
      | nil => simp [lifo] at h
      | cons x st =>
        simp only [lifo] at h
        obtain ⟨os, h1, rfl⟩ := Option.map_eq_some_iff.mp h
        obtain ⟨v, h2, h3, h4⟩ := hr.step (b := b) (e := e) (op := .popBack false) (o := .val x) (q' := st.reverse)
          (by simp [Seq.step]) (.inl h0)
        simp only [Vec.step] at h2
        cases hv : s.store.popBack b e false with
        | error er => rw [hv] at h2; cases h2
        | ok r =>
          obtain ⟨y, w⟩ := r
          rw [hv, res_bind_ok, res_pure] at h2
          obtain rfl := (Prod.mk.inj (Except.ok.inj h2)).2
          simp only [Stk.run, Stk.step, Stk.pop, hv, res_bind_ok, res_pure]
          obtain ⟨s', hs'⟩ := ih ⟨w⟩ st os h3 (h4 h0 trivial) h1
          exact ⟨s', by rw [hs']; rfl⟩
    | top =>
      cases st with
      | nil => simp [lifo] at h
      | cons x st =>
        simp only [lifo] at h
        obtain ⟨os, h1, rfl⟩ := Option.map_eq_some_iff.mp h
        obtain ⟨v, h2, _⟩ := hr.step (b := b) (e := e) (op := .peekBack) (o := .val x) (q' := (x :: st).reverse)
          (by simp [Seq.step]) trivial
        simp only [Vec.step] at h2
        cases hv : s.store.peekBack b with
        | error er => rw [hv] at h2; cases h2
        | ok y =>
          rw [hv, res_bind_ok, res_pure] at h2
          obtain rfl := Vec.Out.val.inj (Prod.mk.inj (Except.ok.inj h2)).1
          simp only [Stk.run, Stk.step, Stk.top, hv, res_bind_ok, res_pure]
          obtain ⟨s', hs'⟩ := ih s (y :: st) os hr h0 h1
          exact ⟨s', by rw [hs']; rfl⟩
    | size =>
      simp only [lifo] at h
      obtain ⟨os, h1, rfl⟩ := Option.map_eq_some_iff.mp h
      have hs : s.size = st.length := by have := hr.holds.1; simpa [Stk.size] using this
      simp only [Stk.run, Stk.step, res_bind_ok, hs]
      obtain ⟨s', hs'⟩ := ih s st os hr h0 h1
      exact ⟨s', by rw [hs']; rfl⟩
    | empty =>
      simp only [lifo] at h
      obtain ⟨os, h1, rfl⟩ := Option.map_eq_some_iff.mp h
      have hs : s.store.size = st.length := by have := hr.holds.1; simpa using this
      simp only [Stk.run, Stk.step, res_bind_ok, Stk.empty, Vec.empty, hs]
      obtain ⟨s', hs'⟩ := ih s st os hr h0 h1
      exact ⟨s', by rw [hs']; rfl⟩

/-- C64. Every history of `push`, `pop`, `top`, `size` and `empty` within the capacity returns what a last-in
first-out list returns. -/
theorem C64_stack_lifo {α : Type} (e : Elem α) (hn : n < sizeMod) (ops : List (Stk.Op α)) {outs : List (Vec.Out α)}
    (h : lifo n [] ops = some outs) : ∃ s, (Stk.create e n).run b e ops = .ok (outs, s) := by
  have hn' : n < sizeMod := hn
  refine Stk.run_spec (n := n) ops (Stk.create e n) [] outs ?_ rfl h
  exact ⟨[], List.replicate n e.zero, [], by simp [Stk.create, Vec.create, Vec.mk'], by simp, hn'⟩

/-- Non-vacuity. -/
example : lifo 2 ([] : List Nat) [.push 1, .push 2, .top, .pop, .top, .push 3, .size, .top, .pop, .pop, .empty] =
    some [.unit, .unit, .val 2, .unit, .val 1, .unit, .num 2, .val 3, .unit, .unit, .bool true] := by decide

/-! ## C73 -/

theorem Stk.assign_count {v v' : Vec (Option ω)} {i : Nat} {x : Option ω} (h : v.assign i x = .ok v') (o : ω) :
    Seq.owned (some o) v'.log - v'.store.count (some o) = Seq.owned (some o) v.log - v.store.count (some o) := by
  unfold Vec.assign rd at h
  cases hi : v.store[i]? with
  | none => rw [hi] at h; cases h
  | some old =>
    rw [hi] at h; simp only [res_bind_ok, res_pure] at h; cases h
    obtain ⟨hlt, rfl⟩ := List.getElem?_eq_some_iff.mp hi
    have hmem : v.store[i] = some o → 0 < v.store.count (some o) := fun h => by
      rw [List.count_pos_iff, ← h]; exact List.getElem_mem _
    simp only [Seq.owned, List.count_set hlt, beq_iff_eq]
    by_cases h1 : v.store[i] = some o <;> by_cases h2 : x = some o
    · have := hmem h1; simp [h1, h2]; omega
    · have := hmem h1; simp [h1, h2]; omega
    · simp [h1, h2]; omega
    · simp [h1, h2]

theorem Stk.emplaceBack_count {v v' : Vec (Option ω)} {x : Option ω} (h0 : v.head = 0)
    (h : v.emplaceBack b (sharedPtr ω) x = .ok v') :
    v'.head = 0 ∧ ∀ o, Seq.owned (some o) v'.log - v'.store.count (some o) = Seq.owned (some o) v.log - v.store.count (some o) := by
  have hc : v.compact b (sharedPtr ω) = .ok v := by simp [Vec.compact, h0]
  simp only [Vec.emplaceBack, hc, res_bind_ok] at h
  cases ha : spnAssert b (decide (v.tail < v.maxSize)) with
  | error e => rw [ha] at h; cases h
  | ok u =>
    rw [ha, res_bind_ok] at h
    split at h
    · cases hs : v.assign v.tail x with
      | error e => rw [hs] at h; cases h
      | ok w =>
        rw [hs, res_bind_ok, res_pure] at h; cases h
        refine ⟨?_, fun o => Stk.assign_count hs o⟩
        unfold Vec.assign at hs
        cases hr : rd v.store v.tail with
        | error e => rw [hr] at hs; cases hs
        | ok y => rw [hr, res_bind_ok, res_pure] at hs; cases hs; exact h0
    · rw [res_pure] at h; cases h; exact ⟨h0, fun _ => rfl⟩

theorem Stk.popBack_count {v v' : Vec (Option ω)} {x : Option ω} (h0 : v.head = 0)
    (h : v.popBack b (sharedPtr ω) false = .ok (x, v')) : v'.head = 0 ∧ v'.store = v.store ∧ v'.log = v.log := by
  unfold Vec.popBack at h
  cases ha : spnAssert b (decide (v.size > 0)) with
  | error e => rw [ha] at h; cases h
  | ok u =>
    rw [ha, res_bind_ok] at h
    simp only [Vec.rvalue, Bool.false_eq_true, if_false] at h
    split at h
    · split at h
      · cases hr : rd v.store 0 with
        | error e => rw [hr] at h; cases h
        | ok y => rw [hr, res_bind_ok, res_pure] at h; cases h; exact ⟨rfl, rfl, rfl⟩
      · cases hr : rd v.store (v.tail - 1) with
        | error e => rw [hr] at h; cases h
        | ok y => rw [hr, res_bind_ok, res_pure] at h; cases h; exact ⟨h0, rfl, rfl⟩
    · cases hr : rd v.store v.tail with
      | error e => rw [hr] at h; cases h
      | ok y => rw [hr, res_bind_ok, res_pure] at h; cases h; exact ⟨h0, rfl, rfl⟩

/-- C73 (partial). After every history of stack calls, the references the stack owns are exactly the shared pointers
in its slots: the elements, and the popped ones whose slot has not been overwritten by a later `push`.
Missing: that `pop` itself releases the reference, which is false (`C73_pop_keeps_reference_counterexample`). -/
theorem C73_references_partial (ops : List (Stk.Op (Option ω))) {outs : List (Vec.Out (Option ω))} {s : Stk (Option ω)}
    (h : (Stk.create (sharedPtr ω) n).run b (sharedPtr ω) ops = .ok (outs, s)) (o : ω) :
    Seq.owned (some o) s.store.log = s.store.store.count (some o) := by
  suffices key : ∀ (ops : List (Stk.Op (Option ω))) (s₀ : Stk (Option ω)) (outs : List (Vec.Out (Option ω))) (s : Stk (Option ω)),
      s₀.store.head = 0 → s₀.run b (sharedPtr ω) ops = .ok (outs, s) →
      Seq.owned (some o) s.store.log - s.store.store.count (some o) =
        Seq.owned (some o) s₀.store.log - s₀.store.store.count (some o) by
    have := key ops _ outs s rfl h
    have h0 : (Stk.create (sharedPtr ω) n).store.store.count (some o) = 0 := by
      simp [Stk.create, Vec.create, List.count_replicate]
    simp only [h0] at this
    simp only [Stk.create, Vec.create, Seq.owned] at this
    omega
  intro ops
  induction ops with
  | nil => intro s₀ outs s _ h; simp only [Stk.run] at h; cases h; rfl
  | cons op ops ih =>
    intro s₀ outs s h0 h
    simp only [Stk.run] at h
    cases hs : s₀.step b (sharedPtr ω) op with
    | error e => rw [hs] at h; cases h
    | ok r =>
      obtain ⟨o1, s1⟩ := r
      rw [hs, res_bind_ok] at h
      cases hr : s1.run b (sharedPtr ω) ops with
      | error e => simp only [hr] at h; cases h
      | ok r2 =>
        obtain ⟨os, s2⟩ := r2
        simp only [hr, res_bind_ok, res_pure] at h
        cases h
        suffices hk : s1.store.head = 0 ∧ Seq.owned (some o) s1.store.log - s1.store.store.count (some o) =
            Seq.owned (some o) s₀.store.log - s₀.store.store.count (some o) by
          rw [ih s1 os _ hk.1 hr]; exact hk.2
        cases op with
        | push x =>
          simp only [Stk.step, Stk.push] at hs
          cases he : s₀.store.emplaceBack b (sharedPtr ω) x with
          | error e => rw [he] at hs; cases hs
          | ok w =>
            rw [he] at hs; simp only [res_bind_ok, res_pure] at hs; cases hs
            have := Stk.emplaceBack_count h0 he
            exact ⟨this.1, this.2 o⟩
        | pop =>
          simp only [Stk.step, Stk.pop] at hs
          cases he : s₀.store.popBack b (sharedPtr ω) false with
          | error e => rw [he] at hs; cases hs
          | ok w =>
            obtain ⟨y, w⟩ := w
            rw [he] at hs; simp only [res_bind_ok, res_pure] at hs; cases hs
            have := Stk.popBack_count h0 he
            exact ⟨this.1, by rw [this.2.1, this.2.2]⟩
        | top =>
          simp only [Stk.step] at hs
          cases ht : s₀.top b with
          | error e => rw [ht] at hs; cases hs
          | ok y => rw [ht] at hs; simp only [res_bind_ok, res_pure] at hs; cases hs; exact ⟨h0, rfl⟩
        | size => simp only [Stk.step] at hs; cases hs; exact ⟨h0, rfl⟩
        | empty => simp only [Stk.step] at hs; cases hs; exact ⟨h0, rfl⟩

/-- Non-vacuity: the second push overwrites the slot of the popped pointer and so releases it. -/
example : ∃ s, (Stk.create (sharedPtr Nat) 2).run b (sharedPtr Nat) [.push (some 1), .pop, .push (some 2)]
    = .ok ([.unit, .unit, .unit], s) ∧ Seq.owned (some 1) s.store.log = 0 ∧ Seq.owned (some 2) s.store.log = 1 := by
  cases b <;> exact ⟨_, rfl, rfl, rfl⟩

/-- C73 is false: `pop` leaves the popped shared pointer in its slot, so the reference is not released: with one object
pushed and popped the stack is empty and still owns a reference to it. -/
theorem C73_pop_keeps_reference_counterexample (o : ω) :
    ∃ s s' : Stk (Option ω), (Stk.create (sharedPtr ω) 2).push b (sharedPtr ω) (some o) = .ok s ∧ s.pop b (sharedPtr ω) = .ok s' ∧
      s'.size = 0 ∧ Seq.owned (some o) s'.store.log = 1 := by
  cases b <;> exact ⟨_, _, rfl, rfl, rfl, by simp [Seq.owned, Vec.create, Stk.create]⟩

end Spine
