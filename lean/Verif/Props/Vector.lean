import Verif.Proofs.VectorSeq
/-!
# Properties C19-C25 and C66: `Vector`

`Vec.Start e v q` lists the constructors (`v` is freshly built and holds `q`), `Vec.Reachable b e v` says
that a program can get `v` by calls made within their preconditions, and `Vec.Holds v q` says that a
caller who looks sees the sequence `q`: `size()` is its length and `operator[]` gives its elements.
`Seq.step`/`Seq.run` say what a plain sequence does (and `none` when a call breaks its precondition).
Every theorem holds for both build modes `b`, every element type and every capacity that fits into a `size_t`.
-/

namespace Spine

variable {α : Type} {b : Build} {e : Elem α}

/-! ## C19 -/

/-- All operations but `pop_back` (C20), `remove` (C21) and `front` (C25). -/
def Vec.Op.Plain : Vec.Op α → Prop
  | .popBack _ | .remove _ | .front => False
  | _ => True

/-- C19. Every history of `push_back`, `emplace_back`, `push_front`, `emplace_front`, `insert`, `pop_front`,
`clear`, `fill`, `operator[]` (reading and writing), `peek_front`, `peek_back`, `back`, `size`, `empty`,
`full`, `max_size` that respects the preconditions of a bounded sequence runs without undefined
behaviour or failing assertion, returns exactly what the sequence returns, and leaves the same contents. -/
theorem C19_vector_is_bounded_sequence {v : Vec α} {q : List α} (hv : Vec.Start e v q) (hn : v.maxSize < sizeMod)
    (ops : List (Vec.Op α)) (hops : ∀ op ∈ ops, op.Plain) {outs : List (Vec.Out α)} {q' : List α}
    (hseq : Seq.run v.maxSize q ops = some (outs, q')) :
    ∃ v', v.run b e ops = .ok (outs, v') ∧ v'.Holds q' := by
  have hn' : v.maxSize < sizeMod := hn
  obtain ⟨v', h1, h2, _⟩ := Vec.Rep.run (b := b) (e := e) (n := v.maxSize)
    (P := fun _ _ ops => ∀ op ∈ ops, op.Plain)
    (fun v q op ops _ hp => by
      have h1 := hp op (by simp)
      have h2 : ∀ o ∈ ops, o.Plain := fun o ho => hp o (by simp [ho])
      refine ⟨?_, fun _ _ _ _ _ _ => h2⟩
      cases op <;> first | trivial | exact absurd h1 id)
    ops v q outs q' (hv.rep hn').1 hops hseq
  exact ⟨v', h1, h2.holds⟩

/-- The element type of the examples. -/
abbrev natElem : Elem Nat := { zero := 0, moved := id }

/-- Non-vacuity of C19: a history on a vector of capacity 3 that fills it, compacts it and inserts in
the middle. -/
example : Seq.run 3 ([] : List Nat) [.pushBack 1, .pushBack 2, .pushBack 3, .popFront true, .pushBack 4, .popFront false,
      .insert 1 9, .get 1, .size]
    = some ([.unit, .unit, .unit, .val 1, .unit, .val 2, .unit, .val 9, .num 3], [3, 9, 4]) := by decide

example : Vec.Start natElem (Vec.create natElem 3) [] := .create 3

/-! ## C20 -/

/-- C20 (partial). `pop_back` returns the last element and removes exactly it, on every reachable vector
with at least two elements, and on every vector whose window starts at slot 0.
Missing: a single element in a window that does not start at slot 0, where the claim is false
(`C20_pop_back_counterexample`). -/
theorem C20_pop_back_partial {v : Vec α} (hv : Vec.Reachable b e v) {q : List α} {x : α} (hq : v.Holds (q ++ [x]))
    (h : q ≠ [] ∨ v.head = 0) (c : Bool) :
    ∃ v', v.popBack b e c = .ok (x, v') ∧ v'.Holds q := by
  have hr := hv.rep' hq
  have hstep : Seq.step v.maxSize (q ++ [x]) (.popBack c) = some (.val x, q) := by simp [Seq.step]
  obtain ⟨v', h1, h2, _⟩ := hr.step (b := b) (e := e) hstep (by
    rcases h with h | h
    · exact .inr (by have := List.length_pos_iff.mpr h; simp; omega)
    · exact .inl h)
  simp only [Vec.step] at h1
  cases hp : v.popBack b e c with
  | error er => rw [hp] at h1; simp at h1
  | ok r =>
    rw [hp] at h1
    simp only [res_bind_ok, res_pure, Except.ok.injEq, Prod.mk.injEq, Vec.Out.val.injEq] at h1
    obtain ⟨h3, rfl⟩ := h1
    exact ⟨r.2, by rw [← h3], h2.holds⟩

/-- What may happen in a history that works at the back and in the middle only: nothing is taken from
the front, and `remove` is called only while there is a free slot. -/
def Vec.BackHistory (n : Nat) : List α → List (Vec.Op α) → Prop
  | _, [] => True
  | q, op :: ops => (match op with
      | .popFront _ => False
      | .remove i => i ≠ 0 ∧ q.length < n
      | _ => True) ∧ ∀ o q', Seq.step n q op = some (o, q') → Vec.BackHistory n q' ops

theorem Vec.BackHistory.sound {n : Nat} {v : Vec α} {q : List α} {op : Vec.Op α} {ops : List (Vec.Op α)}
    (h : Vec.BackHistory n q (op :: ops)) (hn : v.maxSize = n) (h0 : v.head = 0) :
    Vec.Sound v q op ∧ Vec.KeepsFront op := by
  obtain ⟨h1, _⟩ := h
  subst hn
  cases op <;> simp_all [Vec.Sound, Vec.KeepsFront]

/-- C20/C21 for histories (partial). A vector from which nothing is ever taken at the front, and from which
`remove(i)` (with `i > 0`) is called only while there is a free slot, is a bounded sequence for *all* other
operations, including `pop_back`, `remove` and `front`. -/
theorem C20_back_history_partial {v : Vec α} {q : List α} (hv : Vec.Start e v q) (hn : v.maxSize < sizeMod)
    (ops : List (Vec.Op α)) (hops : Vec.BackHistory v.maxSize q ops) {outs : List (Vec.Out α)} {q' : List α}
    (hseq : Seq.run v.maxSize q ops = some (outs, q')) :
    ∃ v', v.run b e ops = .ok (outs, v') ∧ v'.Holds q' := by
  have hn' : v.maxSize < sizeMod := hn
  obtain ⟨v', h1, h2, _⟩ := Vec.Rep.run (b := b) (e := e) (n := v.maxSize)
    (P := fun w q ops => w.head = 0 ∧ Vec.BackHistory v.maxSize q ops)
    (fun w q op ops hr hp => by
      obtain ⟨hs, hk⟩ := hp.2.sound hr.maxSize hp.1
      refine ⟨hs, fun o q' v' h1 h2 h3 => ⟨?_, hp.2.2 o q' h1⟩⟩
      obtain ⟨w', h4, _, h5⟩ := hr.step (b := b) (e := e) h1 hs
      rw [h4] at h2
      obtain ⟨-, rfl⟩ := Prod.mk.inj (Except.ok.inj h2)
      exact h5 hp.1 hk)
    ops v q outs q' (hv.rep hn').1 ⟨(hv.rep hn').2, hops⟩ hseq
  exact ⟨v', h1, h2.holds⟩

/-- Non-vacuity. -/
example : Seq.run 4 ([] : List Nat) [.pushBack 1, .pushBack 2, .pushFront 0, .remove 1, .popBack true, .popBack true]
    = some ([.unit, .unit, .unit, .val 1, .val 2, .val 0], []) := by decide

example : Vec.BackHistory 4 ([] : List Nat) [.pushBack 1, .remove 1] := by
  simp [Vec.BackHistory, Seq.step]

/-- C20 is false in general: with 1 and 2 in the vector, after `pop_front` returned 1, `pop_back` returns 1
again instead of 2. -/
theorem C20_pop_back_counterexample :
    ∃ v, (Vec.create natElem 2).run b natElem [.pushBack 1, .pushBack 2, .popFront false] = .ok ([.unit, .unit, .val 1], v) ∧
      v.Holds [2] ∧ ∃ v', v.popBack b natElem true = .ok (1, v') := by
  cases b <;> refine ⟨_, rfl, ⟨rfl, ?_⟩, ⟨_, rfl⟩⟩ <;> intro i h <;>
    (obtain rfl : i = 0 := by simpa using h) <;> rfl

/-! ## C21 -/

/-- C21 (partial). `remove(i)` returns the `i`-th element and keeps the others in order, on every reachable
vector that is not full and whose window starts at slot 0.
Missing: full vectors, where `remove` reads past the end of the storage (`C21_remove_full_counterexample`), and
windows that start elsewhere, where `remove` takes another element or fails
(`C21_remove_after_pop_counterexample`, `C21_remove_twice_counterexample`). -/
theorem C21_remove_partial {v : Vec α} (hv : Vec.Reachable b e v) {q : List α} (hq : v.Holds q) (h0 : v.head = 0)
    (hroom : v.full = false) (i : Nat) (hi : i < q.length) :
    ∃ v', v.remove b e i = .ok (q[i], v') ∧ v'.Holds (q.take i ++ q.drop (i + 1)) := by
  have hr := hv.rep' hq
  have hstep : Seq.step v.maxSize q (.remove i) = some (.val q[i], q.take i ++ q.drop (i + 1)) := by
    simp [Seq.step, hi]
  have hlt : q.length < v.maxSize := by
    have h1 : v.size ≠ v.maxSize := by simpa [Vec.full] using hroom
    rw [hq.1] at h1
    obtain ⟨pre, post, log, rfl, hl, _⟩ := hr
    omega
  obtain ⟨v', h1, h2, _⟩ := hr.step (b := b) (e := e) hstep ⟨h0, hlt⟩
  simp only [Vec.step] at h1
  cases hp : v.remove b e i with
  | error er => rw [hp] at h1; simp at h1
  | ok r =>
    rw [hp] at h1
    simp only [res_bind_ok, res_pure, Except.ok.injEq, Prod.mk.injEq, Vec.Out.val.injEq] at h1
    obtain ⟨h3, rfl⟩ := h1
    exact ⟨r.2, by rw [← h3], h2.holds⟩

/-- Non-vacuity: such a vector exists. -/
example : ∃ v, (Vec.create natElem 4).run b natElem [.pushBack 5, .pushBack 6, .pushBack 7] = .ok ([.unit, .unit, .unit], v) ∧
    v.head = 0 ∧ v.full = false := by
  cases b <;> exact ⟨_, rfl, rfl, rfl⟩

/-- C21 is false for full vectors: removing the middle one of three elements from a vector of capacity 3 reads
outside the storage. -/
theorem C21_remove_full_counterexample :
    ∃ v, Vec.ofList natElem [1, 2, 3] = .ok v ∧ v.Holds [1, 2, 3] ∧ v.remove b natElem 1 = .error .ub := by
  refine ⟨_, rfl, ⟨rfl, ?_⟩, ?_⟩
  · intro i h
    match i, h with
    | 0, _ => rfl
    | 1, _ => rfl
    | 2, _ => rfl
  · cases b <;> rfl

/-- C21 is false after a `pop_front`: of the remaining `[2, 3, 4]`, `remove(2)` takes 3 instead of 4. -/
theorem C21_remove_after_pop_counterexample :
    ∃ v, (Vec.create natElem 5).run b natElem [.pushBack 1, .pushBack 2, .pushBack 3, .pushBack 4, .popFront true]
        = .ok ([.unit, .unit, .unit, .unit, .val 1], v) ∧
      Seq.run 5 [] [.pushBack 1, .pushBack 2, .pushBack 3, .pushBack 4, .popFront true]
        = some ([.unit, .unit, .unit, .unit, .val 1], [2, 3, 4]) ∧
      ∃ v', v.remove b natElem 2 = .ok (3, v') := by
  cases b <;> exact ⟨_, rfl, by decide, _, rfl⟩

/-- C21 is false when `remove(0)` is called twice: the second call fails an assertion in debug builds and does
nothing in release builds. -/
theorem C21_remove_twice_counterexample :
    ∃ v, (Vec.create natElem 5).run b natElem [.pushBack 1, .pushBack 2, .pushBack 3, .remove 0]
        = .ok ([.unit, .unit, .unit, .val 1], v) ∧
      v.remove .debug natElem 0 = .error .assertFailed ∧ v.remove .release natElem 0 = .ok (0, v) := by
  cases b <;> exact ⟨_, rfl, rfl, rfl⟩

/-! ## C22 -/

/-- C22. Forward iteration visits exactly the elements, in order, and ends after `size()` rounds. -/
theorem C22_forward_iteration {v : Vec α} (hv : Vec.Reachable b e v) {q : List α} (hq : v.Holds q) :
    v.forward (q.length + 1) = .ok q := by
  obtain ⟨pre, post, log, rfl, hl, hn⟩ := hv.rep' hq
  have := Vec.forward_loop (log := log) (pre := pre) (q := q) (post := post) (by simp only [Vec.Fits]; omega)
    (q.length + 1) 0 (by omega) (by omega)
  simpa [Vec.forward, Vec.mk'] using this

/-- C22. Reverse iteration visits exactly the elements, in reverse order, and ends after `size()` rounds, also when
the window starts at slot 0 and the end iterator's index wraps around below zero. -/
theorem C22_reverse_iteration {v : Vec α} (hv : Vec.Reachable b e v) {q : List α} (hq : v.Holds q) :
    v.reverse (q.length + 1) = .ok q.reverse := by
  obtain ⟨pre, post, log, rfl, hl, hn⟩ := hv.rep' hq
  have hf : Vec.Fits pre q post := by simp only [Vec.Fits]; omega
  by_cases h0 : q = []
  · subst h0
    have : ¬ (Vec.mk' pre [] post log).tail ≠ (Vec.mk' pre [] post log).head := by simp [Vec.mk']
    simp only [Vec.reverse, if_neg this]
    simp [Vec.mk', Vec.iterate]
  · have hq' := List.length_pos_iff.mpr h0
    have : (Vec.mk' pre q post log).tail ≠ (Vec.mk' pre q post log).head := by simp [Vec.mk']; exact h0
    simp only [Vec.reverse, if_pos this]
    have h := Vec.reverse_loop (log := log) (pre := pre) (q := q) (post := post) hf (q.length + 1) q.length (by omega)
      (by omega)
    simpa [Vec.mk'] using h

/-- Non-vacuity, on a window that starts at slot 0. -/
example : (Vec.over [1, 2, 3] 2).reverse 3 = .ok [2, 1] := by
  have hf : Vec.Fits [] [1, 2] [3] := by have := sizeMod_ge; simp only [Vec.Fits, List.length]; omega
  exact Vec.reverse_loop (pre := []) (q := [1, 2]) (post := [3]) (log := []) hf 3 2 (by decide) (by decide)

/-! ## C23 -/

/-- C23 (partial). On every reachable vector every call within its precondition returns normally: no
access outside the storage, no failing assertion.
Missing: `remove`, for which the window must start at slot 0 and the vector must not be full
(`C21_remove_full_counterexample` shows the access outside the storage). -/
theorem C23_memory_safe_partial {v : Vec α} (hv : Vec.Reachable b e v) {q : List α} (hq : v.Holds q) (op : Vec.Op α)
    {o : Vec.Out α} {q' : List α} (hpre : Seq.step v.maxSize q op = some (o, q'))
    (hrem : ∀ i, op = .remove i → v.head = 0 ∧ v.full = false) :
    ∃ o' v' q'', v.step b e op = .ok (o', v') ∧ v'.Holds q'' ∧ v'.maxSize = v.maxSize ∧ Vec.Reachable b e v' := by
  have hr := hv.rep' hq
  suffices h : ∃ r, v.step b e op = .ok r by
    obtain ⟨⟨o', v'⟩, h⟩ := h
    obtain ⟨q'', h'⟩ := hr.any hpre h
    exact ⟨o', v', q'', h, h'.holds, h'.maxSize, .step hv hq hpre h⟩
  by_cases hs : Vec.Sound v q op
  · obtain ⟨v', h1, _⟩ := hr.step (b := b) (e := e) hpre hs
    exact ⟨_, h1⟩
  · obtain ⟨pre, post, log, rfl, hl, hn⟩ := hr
    have hf : Vec.Fits pre q post := by simp only [Vec.Fits]; omega
    cases op with
    | popBack c =>
      rcases List.eq_nil_or_concat q with rfl | ⟨q, x, rfl⟩
      · simp [Seq.step] at hpre
      · simp only [List.concat_eq_append] at *
        obtain ⟨y, p', s', l', h1, _⟩ := Vec.popBack_any (b := b) (e := e) (log := log) hf c
        exact ⟨_, by simp [Vec.step, h1]; rfl⟩
    | front =>
      cases q with
      | nil => simp [Seq.step] at hpre
      | cons x q =>
        have h0 : 0 < (Vec.mk' pre (x :: q) post log).store.length := by simp [Vec.mk']; omega
        exact ⟨_, by simp only [Vec.step, Vec.front]; rw [rd_lt h0]; rfl⟩
    | remove i =>
      exfalso; apply hs
      obtain ⟨h1, h2⟩ := hrem i rfl
      refine ⟨h1, ?_⟩
      have h3 : q.length ≠ (Vec.mk' pre q post log).maxSize := by
        rw [← hq.1]; simpa [Vec.full] using h2
      rw [Vec.maxSize_mk'] at h3 ⊢; omega
    | _ => exact absurd trivial hs

/-- Non-vacuity: a vector that is full, with its window starting at slot 1 before compaction. -/
example : ∃ v, (Vec.create natElem 2).run b natElem [.pushBack 1, .pushBack 2, .popFront true] = .ok ([.unit, .unit, .val 1], v) ∧
    v.head = 1 ∧ v.tail = 2 ∧ ∃ v', v.pushBack b natElem 3 = .ok v' := by
  cases b <;> exact ⟨_, rfl, rfl, rfl, _, rfl⟩

/-! ## C24

A shared pointer is `none` (null, all bytes zero) or `some o`; moving out of it leaves it null.
`Seq.owned (some o) v.log` is the vector's share of the reference count of the object `o`: the references
created by the copy assignments it ran, less the ones it released or handed to the caller. -/

variable {ω : Type} [DecidableEq ω]

/-- Operations of a queue-like use: everything but `pop_back`, `remove`, `clear` and `front`; popped values
are consumed. -/
def Vec.Op.QueueUse : Vec.Op α → Prop
  | .popBack _ | .remove _ | .front | .clear => False
  | .popFront c => c = true
  | _ => True

/-- Popped values are consumed. -/
def Vec.Op.Consumed : Vec.Op α → Prop
  | .popBack c => c = true
  | .popFront c => c = true
  | _ => True

theorem count_beq (o : ω) (q : List (Option ω)) :
    @List.count (Option ω) instBEqOfDecidableEq (some o) q = q.count (some o) := by
  unfold List.count
  apply List.countP_congr
  intro x _
  rw [@beq_iff_eq _ instBEqOfDecidableEq, beq_iff_eq]

/-- C24 (partial), queue use. In every history of insertions, consumed `pop_front`s, element assignments, fills and
looks on a vector of shared pointers with capacity `n`, the vector's share of the reference count of each
object is exactly the number of elements that refer to it: moving bytes around inside the vector
neither leaks nor releases too often.
Missing: `pop_back`, `remove` and `clear`; see `C24_shared_counts_back_partial` and the
counterexamples. -/
theorem C24_shared_counts_partial (n : Nat) (hn : n < sizeMod) (ops : List (Vec.Op (Option ω)))
    (hops : ∀ op ∈ ops, op.QueueUse) {outs : List (Vec.Out (Option ω))} {q : List (Option ω)}
    (hseq : Seq.run n [] ops = some (outs, q)) :
    ∃ v, (Vec.create (sharedPtr ω) n).run b (sharedPtr ω) ops = .ok (outs, v) ∧
      ∀ o : ω, Seq.owned (some o) v.log = q.count (some o) := by
  have hn' : n < sizeMod := hn
  have hstart : Vec.Exact (sharedPtr ω) n (Vec.create (sharedPtr ω) n) [] :=
    ⟨[], List.replicate n none, [], by simp [Vec.create, Vec.mk'], by simp, hn', by simp, by simp [Seq.owned]⟩
  obtain ⟨v, h1, _, ⟨pre, post, log, rfl, _, _, _, ho⟩, _⟩ := Vec.Rep.run (b := b) (e := sharedPtr ω) (n := n)
    (P := fun v q ops => Vec.Exact (sharedPtr ω) n v q ∧ ∀ op ∈ ops, op.QueueUse)
    (fun v q op ops _ hp => by
      have h1 := hp.2 op (by simp)
      have h2 : ∀ o ∈ ops, o.QueueUse := fun o ho => hp.2 o (by simp [ho])
      have hs : Vec.Sound v q op := by cases op <;> first | trivial | exact absurd h1 id
      have hc : Vec.Counts v op := by cases op <;> first | trivial | exact h1 | exact absurd h1 id
      refine ⟨hs, fun o q' v' h3 h4 _ => ⟨?_, h2⟩⟩
      obtain ⟨w, h5, h6⟩ := hp.1.step (b := b) (fun _ => rfl) h3 hs hc
      rw [h5] at h4
      obtain ⟨-, rfl⟩ := Prod.mk.inj (Except.ok.inj h4)
      exact h6)
    ops _ [] outs q hstart.rep ⟨hstart, hops⟩ hseq
  exact ⟨_, h1, fun o => by
    have h := ho (some o) (by simp)
    rw [count_beq] at h
    exact h⟩

/-- C24 (partial), use without taking anything from the front: `pop_back`, `remove(i)` with `i > 0` on a
vector with a free slot, and `clear`, are exact as well. -/
theorem C24_shared_counts_back_partial (n : Nat) (hn : n < sizeMod) (ops : List (Vec.Op (Option ω)))
    (hops : Vec.BackHistory n [] ops) (hcons : ∀ op ∈ ops, op.Consumed)
    {outs : List (Vec.Out (Option ω))} {q : List (Option ω)} (hseq : Seq.run n [] ops = some (outs, q)) :
    ∃ v, (Vec.create (sharedPtr ω) n).run b (sharedPtr ω) ops = .ok (outs, v) ∧
      ∀ o : ω, Seq.owned (some o) v.log = q.count (some o) := by
  have hn' : n < sizeMod := hn
  have hstart : Vec.Exact (sharedPtr ω) n (Vec.create (sharedPtr ω) n) [] :=
    ⟨[], List.replicate n none, [], by simp [Vec.create, Vec.mk'], by simp, hn', by simp, by simp [Seq.owned]⟩
  obtain ⟨v, h1, _, ⟨pre, post, log, rfl, _, _, _, ho⟩, _⟩ := Vec.Rep.run (b := b) (e := sharedPtr ω) (n := n)
    (P := fun v q ops => Vec.Exact (sharedPtr ω) n v q ∧ v.head = 0 ∧ Vec.BackHistory n q ops ∧ ∀ op ∈ ops, op.Consumed)
    (fun v q op ops hr hp => by
      obtain ⟨hx, h0, hb, hcn⟩ := hp
      obtain ⟨hs, hk⟩ := hb.sound hr.maxSize h0
      have h1 := hcn op (by simp)
      have h2 : ∀ o ∈ ops, o.Consumed := fun o ho => hcn o (by simp [ho])
      have hc : Vec.Counts v op := by cases op <;> first | trivial | exact h1 | exact h0
      refine ⟨hs, fun o q' v' h3 h4 _ => ?_⟩
      obtain ⟨w, h5, h6⟩ := hx.step (b := b) (fun _ => rfl) h3 hs hc
      obtain ⟨w', h7, _, h8⟩ := hr.step (b := b) (e := sharedPtr ω) h3 hs
      rw [h5] at h4
      obtain ⟨-, rfl⟩ := Prod.mk.inj (Except.ok.inj h4)
      rw [h5] at h7
      obtain ⟨-, rfl⟩ := Prod.mk.inj (Except.ok.inj h7)
      exact ⟨h6, h8 h0 hk, hb.2 o q' h3, h2⟩)
    ops _ [] outs q hstart.rep ⟨hstart, rfl, hops, hcons⟩ hseq
  exact ⟨_, h1, fun o => by
    have h := ho (some o) (by simp)
    rw [count_beq] at h
    exact h⟩

/-- Non-vacuity: a history with compaction and with an insertion in the middle. -/
example : Seq.run 3 [] [.pushBack (some 'a'), .pushBack (some 'b'), .pushBack (some 'a'), .popFront true, .pushBack (some 'c'),
      .popFront true, .insert 1 (some 'd')]
    = some ([.unit, .unit, .unit, .val (some 'a'), .unit, .val (some 'b'), .unit], [some 'a', some 'd', some 'c']) := by
  decide

/-- C24 is false with `pop_back` after `pop_front`: the vector is empty, both values were taken out as documented,
yet the vector still owns a reference to the second object; the caller got a null pointer instead. -/
theorem C24_pop_back_counterexample :
    ∃ v, (Vec.create (sharedPtr Char) 2).run b (sharedPtr Char)
        [.pushBack (some 'a'), .pushBack (some 'b'), .popFront true, .popBack true]
          = .ok ([.unit, .unit, .val (some 'a'), .val none], v) ∧
      v.Holds [] ∧ Seq.owned (some 'b') v.log = 1 := by
  cases b <;> refine ⟨_, rfl, ⟨rfl, ?_⟩, rfl⟩ <;> intro i h <;> simp at h

/-- C24 is false with `clear` after `pop_front`, for the same reason: the cleared vector keeps a reference. -/
theorem C24_clear_counterexample :
    ∃ v, (Vec.create (sharedPtr Char) 3).run b (sharedPtr Char)
        [.pushBack (some 'a'), .pushBack (some 'b'), .pushBack (some 'c'), .popFront true, .clear]
          = .ok ([.unit, .unit, .unit, .val (some 'a'), .unit], v) ∧
      v.Holds [] ∧ Seq.owned (some 'b') v.log = 1 := by
  cases b <;> refine ⟨_, rfl, ⟨rfl, ?_⟩, rfl⟩ <;> intro i h <;> simp at h

/-! ## C25 -/

/-- C25, first half: `back()` (and `peek_back()`) is the last element of every reachable non-empty vector. -/
theorem C25_back {v : Vec α} (hv : Vec.Reachable b e v) {q : List α} {x : α} (hq : v.Holds (q ++ [x])) :
    v.back = .ok x ∧ v.peekBack b = .ok x := by
  have hr := hv.rep' hq
  have h1 : Seq.step v.maxSize (q ++ [x]) .back = some (.val x, q ++ [x]) := by simp [Seq.step]
  have h2 : Seq.step v.maxSize (q ++ [x]) .peekBack = some (.val x, q ++ [x]) := by simp [Seq.step]
  obtain ⟨v1, h3, _⟩ := hr.step (b := b) (e := e) h1 trivial
  obtain ⟨v2, h4, _⟩ := hr.step (b := b) (e := e) h2 trivial
  constructor
  · cases h : v.back with
    | error er => simp [Vec.step, h] at h3
    | ok y => simp [Vec.step, h] at h3; rw [h3.1]
  · cases h : v.peekBack b with
    | error er => simp [Vec.step, h] at h4
    | ok y => simp [Vec.step, h] at h4; rw [h4.1]

/-- C25, second half (partial): `front()` is the first element when the window starts at slot 0;
`peek_front()` always is. Missing: `front()` on other windows, where the claim is false. -/
theorem C25_front_partial {v : Vec α} (hv : Vec.Reachable b e v) {q : List α} {x : α} (hq : v.Holds (x :: q)) :
    v.peekFront b = .ok x ∧ (v.head = 0 → v.front = .ok x) := by
  have hr := hv.rep' hq
  have h1 : Seq.step v.maxSize (x :: q) .front = some (.val x, x :: q) := by simp [Seq.step]
  have h2 : Seq.step v.maxSize (x :: q) .peekFront = some (.val x, x :: q) := by simp [Seq.step]
  obtain ⟨v2, h4, _⟩ := hr.step (b := b) (e := e) h2 trivial
  constructor
  · cases h : v.peekFront b with
    | error er => simp [Vec.step, h] at h4
    | ok y => simp [Vec.step, h] at h4; rw [h4.1]
  · intro h0
    obtain ⟨v1, h3, _⟩ := hr.step (b := b) (e := e) h1 h0
    cases h : v.front with
    | error er => simp [Vec.step, h] at h3
    | ok y => simp [Vec.step, h] at h3; rw [h3.1]

/-- C25 is false after `pop_front`: `front()` still returns the popped element. -/
theorem C25_front_counterexample :
    ∃ v, (Vec.create natElem 3).run b natElem [.pushBack 1, .pushBack 2, .popFront false] = .ok ([.unit, .unit, .val 1], v) ∧
      v.Holds [2] ∧ v.front = .ok 1 := by
  cases b <;> refine ⟨_, rfl, ⟨rfl, ?_⟩, rfl⟩ <;> intro i h <;>
    (obtain rfl : i = 0 := by simpa using h) <;> rfl

/-! ## C66 -/

/-- C66 (partial). Destroying a vector releases everything it owned if it was emptied (in queue use) first.
Missing: a non-empty vector (`C66_destroy_leaks_counterexample`). -/
theorem C66_destroy_empty_partial (n : Nat) (hn : n < sizeMod) (ops : List (Vec.Op (Option ω)))
    (hops : ∀ op ∈ ops, op.QueueUse) {outs : List (Vec.Out (Option ω))}
    (hseq : Seq.run n [] ops = some (outs, [])) :
    ∃ v, (Vec.create (sharedPtr ω) n).run b (sharedPtr ω) ops = .ok (outs, v) ∧
      ∀ o : ω, Seq.owned (some o) v.destroy = 0 := by
  obtain ⟨v, h1, h2⟩ := C24_shared_counts_partial (b := b) n hn ops hops hseq
  exact ⟨v, h1, fun o => by simpa [Vec.destroy] using h2 o⟩

/-- C66 is false: destroying a vector that still holds elements releases none of them.  In every queue-like
history, the references still owned after destruction are exactly those of the elements it held. -/
theorem C66_destroy_leaks_counterexample (n : Nat) (hn : n < sizeMod) (ops : List (Vec.Op (Option ω)))
    (hops : ∀ op ∈ ops, op.QueueUse) {outs : List (Vec.Out (Option ω))} {q : List (Option ω)}
    (hseq : Seq.run n [] ops = some (outs, q)) :
    ∃ v, (Vec.create (sharedPtr ω) n).run b (sharedPtr ω) ops = .ok (outs, v) ∧
      ∀ o : ω, some o ∈ q → Seq.owned (some o) v.destroy > 0 := by
  obtain ⟨v, h1, h2⟩ := C24_shared_counts_partial (b := b) n hn ops hops hseq
  refine ⟨v, h1, fun o ho => ?_⟩
  have := List.count_pos_iff.mpr ho
  have h3 := h2 o
  simp only [Vec.destroy]; omega

end Spine
