import Verif.Proofs.RingBuffer
/-!
# Properties C01–C06: `RingBuffer`
-/

namespace Spine

open Ring

variable {α : Type}

/-! ## C01 -/

/-- **C01**. Every history of pushes, pops, peeks, clears and queries on a ring buffer of capacity
`n ≥ 1` runs without fault and gives exactly the outputs of a bounded FIFO queue; what is left in the
buffer is what is left in the queue.  (The caller's contract: the destination of a bulk pop is large
enough.) -/
theorem C01_ring_is_bounded_fifo (n : Nat) (hn : 0 < n) (b : Build) (init : α) (ops : List (Op α))
    (hc : ∀ op ∈ ops, Queue.CallerOk op) (hd : ∀ op ∈ ops, Queue.NotDrop op) :
    ∃ r₀ r, create b n init = .ok r₀ ∧ r₀.run ops = .ok ((Queue.run n [] ops).1, r) ∧
      r.Holds (Queue.run n [] ops).2 := by
  obtain ⟨r₀, e₀, h₀, -⟩ := Rep.create hn b init
  have hd' : ∀ op ∈ ops, Queue.NotDropZero op := by
    intro op ho
    have := hd op ho
    cases op <;> simp_all [Queue.NotDrop, Queue.NotDropZero]
  obtain ⟨r, e, h⟩ := Rep.run ops h₀ hc hd'
  exact ⟨r₀, r, e₀, e, h.holds⟩

theorem queue_order (n : Nat) : ∀ (ops : List (Op α)) (q : List α), q.length ≤ n →
    (∀ op ∈ ops, Queue.CallerOk op) → (∀ op ∈ ops, Queue.NotDropOrClear op) → (∀ op ∈ ops, Queue.NoRollover op) →
    Queue.delivered ops (Queue.run n q ops).1 ++ (Queue.run n q ops).2 =
      q ++ Queue.accepted ops (Queue.run n q ops).1
  | [], q, _, _, _, _ => by simp [Queue.run, Queue.delivered, Queue.accepted]
  | op :: ops, q, hq, hc, hd, hr => by
    have ih := fun q' hq' => queue_order n ops q' hq' (fun o ho => hc o (by simp [ho]))
      (fun o ho => hd o (by simp [ho])) (fun o ho => hr o (by simp [ho]))
    have hc' := hc op (by simp)
    have hd' := hd op (by simp)
    have hr' := hr op (by simp)
    cases op with
    | push v ro =>
      simp only [Queue.NoRollover] at hr'
      subst hr'
      by_cases h : q.length < n
      · simp [Queue.run, Queue.step, h, Queue.delivered, Queue.accepted]
        rw [ih (q ++ [v]) (by simp; omega)]; simp
      · simp [Queue.run, Queue.step, h, Queue.delivered, Queue.accepted]
        exact ih q hq
    | pushMany vs ro =>
      simp only [Queue.NoRollover] at hr'
      subst hr'
      have ht : vs.take (min vs.length (n - q.length)) = vs.take (n - q.length) := by
        rw [List.take_eq_take_iff]; omega
      have := ih (q ++ vs.take (n - q.length)) (by simp; omega)
      simp only [Queue.run, Queue.step, Queue.delivered, Queue.accepted, Bool.false_eq_true, if_false, this, ht,
        List.append_assoc]
    | pop =>
      cases q with
      | nil =>
        have := ih [] (by simp)
        simpa [Queue.run, Queue.step, Queue.delivered, Queue.accepted] using this
      | cons v q =>
        have := ih q (by simp at hq; omega)
        simpa [Queue.run, Queue.step, Queue.delivered, Queue.accepted] using this
    | popMany dst k =>
      simp only [Queue.CallerOk] at hc'
      by_cases hk : k ≤ q.length
      · have := ih (q.drop k) (by simp; omega)
        simp only [Queue.run, Queue.step, hk, if_true, Queue.delivered, Queue.accepted]
        have ht : (q.take k ++ dst.drop k).take k = q.take k := by
          rw [List.take_append_of_le_length (by simp [hk])]; rw [List.take_take, Nat.min_self]
        rw [ht, List.append_assoc, this, ← List.append_assoc, List.take_append_drop]
      · have := ih q hq
        simpa [Queue.run, Queue.step, hk, Queue.delivered, Queue.accepted] using this
    | dropLast k => exact absurd hd' id
    | dropFirst k => exact absurd hd' id
    | clear => exact absurd hd' id
    | _ => simpa [Queue.run, Queue.step, Queue.delivered, Queue.accepted] using ih q hq

/-- **C01**, seen from the data. In every history without rollover, drops and clears, the elements
delivered by pops followed by the elements still stored are exactly the elements accepted by pushes, in
order: nothing is lost, duplicated, invented or reordered. -/
theorem C01_ring_order (n : Nat) (hn : 0 < n) (b : Build) (init : α) (ops : List (Op α))
    (hc : ∀ op ∈ ops, Queue.CallerOk op) (hd : ∀ op ∈ ops, Queue.NotDropOrClear op)
    (hr : ∀ op ∈ ops, Queue.NoRollover op) :
    ∃ r₀ r outs q, create b n init = .ok r₀ ∧ r₀.run ops = .ok (outs, r) ∧ r.Holds q ∧
      Queue.delivered ops outs ++ q = Queue.accepted ops outs := by
  obtain ⟨r₀, r, e₀, e, h⟩ := C01_ring_is_bounded_fifo n hn b init ops hc (by
    intro op ho
    have := hd op ho
    cases op <;> simp_all [Queue.NotDrop, Queue.NotDropOrClear])
  refine ⟨r₀, r, _, _, e₀, e, h, ?_⟩
  have := queue_order n ops [] (by simp) hc hd hr
  simpa using this

/-- A history meeting the hypotheses of C01 that wraps around, overwrites and pops in bulk. -/
def ringHistory : List (Op Nat) :=
  [.push 1 false, .push 2 false, .pop, .pushMany [3, 4, 5] true, .peekAt 0, .popMany [0, 0, 0] 2, .push 6 false,
   .usedSpace, .full, .pop, .clear, .pop]

example : (∀ op ∈ ringHistory, Queue.CallerOk op) ∧ (∀ op ∈ ringHistory, Queue.NotDrop op) ∧
    (Queue.run 3 [] ringHistory).1 =
      [.bool true, .bool true, .val (some 1), .num 3, .val (some 3), .block 2 [3, 4, 0], .bool true, .num 2,
       .bool false, .val (some 5), .unit, .val none] := by
  refine ⟨?_, ?_, by decide⟩ <;>
    simp [ringHistory, Queue.CallerOk, Queue.NotDrop]

/-! ## C02 -/

/-- **C02**. After any history of any calls, the space accounting is consistent. -/
theorem C02_ring_space (n : Nat) (hn : 0 < n) (r : Ring α) (h : Reachable n r) :
    r.usedSpace + r.freeSpace = n ∧ r.capacity = n ∧ (r.empty = true ↔ r.usedSpace = 0) ∧
      (r.full = true ↔ r.freeSpace = 0) ∧ r.usedSpace ≤ n := by
  obtain ⟨q, hq⟩ := h.rep hn
  rw [hq.used, hq.free, hq.emptyEq, hq.fullEq]
  have := hq.qle
  refine ⟨by omega, hq.len, by simp, by simp; omega, this⟩

/-- Every reachable ring buffer also holds some definite sequence: all positions below `used_space()`
can be peeked at without fault. -/
theorem C02_ring_readable (n : Nat) (hn : 0 < n) (r : Ring α) (h : Reachable n r) : ∃ q, r.Holds q := by
  obtain ⟨q, hq⟩ := h.rep hn
  exact ⟨q, hq.holds⟩

/-- A reachable state that went through overwriting, `drop_last(0)` on a full buffer and wrap-around. -/
example : ∃ r : Ring Nat, Reachable 3 r ∧ r.usedSpace = 2 ∧ r.tail = 2 ∧ r.Holds [6, 7] := by
  refine ⟨⟨[7, 5, 6], 1, 2, 0, false⟩, ⟨.debug, 0, _,
    [.pushMany [1, 2, 3, 4] true, .dropLast 0, .pushMany [5, 6] false, .pop, .push 7 false], _, rfl, rfl⟩,
    rfl, rfl, rfl, ?_⟩
  intro i
  match i with
  | 0 => rfl
  | 1 => rfl
  | i + 2 => simp [peekAt, usedSpace, full, Ring.capacity, pure, Except.pure]

/-! ## C03 -/

/-- **C03**, rollover. Pushing any block with rollover stores all of it and leaves exactly the newest
`n` elements of what was stored followed by the block. -/
theorem C03_ring_rollover_keeps_newest (n : Nat) (hn : 0 < n) (r : Ring α) (h : Reachable n r) (q : List α)
    (hq : r.Holds q) (vs : List α) :
    ∃ r', r.pushMany vs true = .ok (vs.length, r') ∧ r'.Holds (Queue.newest n (q ++ vs)) := by
  obtain ⟨q', hq'⟩ := h.rep hn
  obtain rfl := hq'.holds.unique hq
  obtain ⟨r', e, h'⟩ := Rep.pushMany_true vs hq'
  exact ⟨r', e, h'.holds⟩

/-- **C03**, rollover, one element at a time. -/
theorem C03_ring_rollover_keeps_newest_single (n : Nat) (hn : 0 < n) (r : Ring α) (h : Reachable n r)
    (q : List α) (hq : r.Holds q) (v : α) :
    ∃ r', r.push v true = .ok (true, r') ∧ r'.Holds (Queue.newest n (q ++ [v])) := by
  obtain ⟨r', e, h'⟩ := C03_ring_rollover_keeps_newest n hn r h q hq [v]
  refine ⟨r', ?_, h'⟩
  unfold pushMany at e
  cases hp : r.push v true with
  | error f => simp [hp, bind, Except.bind] at e
  | ok x =>
    obtain ⟨d, r₁⟩ := x
    cases d <;> simp [hp, bind, Except.bind, pure, Except.pure, pushMany] at e
    rw [e]

/-- **C03**, no rollover. Exactly the prefix that fits is accepted; what was stored is untouched. -/
theorem C03_ring_no_rollover_keeps_all (n : Nat) (hn : 0 < n) (r : Ring α) (h : Reachable n r) (q : List α)
    (hq : r.Holds q) (vs : List α) :
    ∃ r', r.pushMany vs false = .ok (min vs.length (n - q.length), r') ∧
      r'.Holds (q ++ vs.take (n - q.length)) := by
  obtain ⟨q', hq'⟩ := h.rep hn
  obtain rfl := hq'.holds.unique hq
  obtain ⟨r', e, h', -⟩ := Rep.pushMany_false vs hq'
  exact ⟨r', e, h'.holds⟩

example : Queue.newest 3 ([1, 2] ++ [3, 4, 5]) = [3, 4, 5] ∧ ([1, 2] : List Nat) ++ [3, 4].take (3 - 2) = [1, 2, 3] := by
  decide

/-! ## C04 -/

/-- **C04**, the part that holds: `drop_last(k)` removes exactly the `min(k, used)` newest elements and
returns their number, provided `k > 0` or the buffer is not full.
Missing: `k = 0` on a full buffer, see `C04_drop_zero_on_full_counterexample`. -/
theorem C04_drop_last_partial (n : Nat) (hn : 0 < n) (r : Ring α) (h : Reachable n r) (q : List α)
    (hq : r.Holds q) (k : Nat) (hk : 0 < k ∨ q.length < n) :
    ∃ r', r.dropLast k = .ok (min k q.length, r') ∧ r'.Holds (q.take (q.length - k)) := by
  obtain ⟨q', hq'⟩ := h.rep hn
  obtain rfl := hq'.holds.unique hq
  obtain ⟨r', e, h', -⟩ := hq'.dropLast k hk
  exact ⟨r', e, h'.holds⟩

/-- **C04**, the part that holds, for `drop_first`. -/
theorem C04_drop_first_partial (n : Nat) (hn : 0 < n) (r : Ring α) (h : Reachable n r) (q : List α)
    (hq : r.Holds q) (k : Nat) (hk : 0 < k ∨ q.length < n) :
    ∃ r', r.dropFirst k = .ok (min k q.length, r') ∧ r'.Holds (q.drop k) := by
  obtain ⟨q', hq'⟩ := h.rep hn
  obtain rfl := hq'.holds.unique hq
  obtain ⟨r', e, h'⟩ := hq'.dropFirst k hk
  exact ⟨r', e, h'.holds⟩

/-- **C04** over whole histories: every history without `drop_first(0)` and `drop_last(0)` gives the
outputs of the queue. -/
theorem C04_ring_history_with_drops_partial (n : Nat) (hn : 0 < n) (b : Build) (init : α) (ops : List (Op α))
    (hc : ∀ op ∈ ops, Queue.CallerOk op) (hd : ∀ op ∈ ops, Queue.NotDropZero op) :
    ∃ r₀ r, create b n init = .ok r₀ ∧ r₀.run ops = .ok ((Queue.run n [] ops).1, r) ∧
      r.Holds (Queue.run n [] ops).2 := by
  obtain ⟨r₀, e₀, h₀, -⟩ := Rep.create hn b init
  obtain ⟨r, e, h⟩ := Rep.run ops h₀ hc hd
  exact ⟨r₀, r, e₀, e, h.holds⟩

/-- The code violates C04: on every full buffer, `drop_last(0)` and `drop_first(0)` report that they
dropped nothing, and yet leave the buffer empty. -/
theorem C04_drop_zero_on_full_counterexample (n : Nat) (hn : 0 < n) (r : Ring α) (h : Reachable n r)
    (q : List α) (hq : r.Holds q) (hf : q.length = n) :
    (∃ r', r.dropLast 0 = .ok (0, r') ∧ r'.Holds []) ∧ (∃ r', r.dropFirst 0 = .ok (0, r') ∧ r'.Holds []) := by
  obtain ⟨q', hq'⟩ := h.rep hn
  obtain rfl := hq'.holds.unique hq
  obtain ⟨r₁, e₁, h₁⟩ := hq'.dropLast_zero_full hf
  obtain ⟨r₂, e₂, h₂⟩ := hq'.dropFirst_zero_full hf
  exact ⟨⟨r₁, e₁, h₁.holds⟩, ⟨r₂, e₂, h₂.holds⟩⟩

/-- The negation of C04 as a closed statement. -/
theorem C04_drop_last_counterexample :
    ¬ (∀ (n : Nat) (r : Ring Nat) (q : List Nat) (k : Nat), 0 < n → Reachable n r → r.Holds q →
        ∃ r', r.dropLast k = .ok (min k q.length, r') ∧ r'.Holds (q.take (q.length - k))) := by
  intro hall
  have hr : Reachable 2 (⟨[7, 8], 0, 0, 0, true⟩ : Ring Nat) :=
    ⟨.release, 0, _, [.push 7 false, .push 8 false], _, rfl, rfl⟩
  obtain ⟨q, hq⟩ := C02_ring_readable 2 (by omega) _ hr
  have hl : q.length = 2 := by rw [← hq.1]; rfl
  obtain ⟨r₁, e₁, h₁⟩ := hall 2 _ q 0 (by omega) hr hq
  obtain ⟨⟨r₂, e₂, h₂⟩, -⟩ := C04_drop_zero_on_full_counterexample 2 (by omega) _ hr q hq hl
  rw [e₁] at e₂
  cases e₂
  have := h₁.unique h₂
  have : (q.take (q.length - 0)).length = 0 := by rw [this]; rfl
  simp at this
  rw [this] at hl
  simp at hl

/-- The documentation ("or all if left at 0") is not met either: on a buffer which is not full the
default argument 0 drops nothing. -/
theorem C04_drop_default_drops_nothing (n : Nat) (hn : 0 < n) (r : Ring α) (h : Reachable n r)
    (q : List α) (hq : r.Holds q) (hf : q.length < n) :
    ∃ r', r.dropLast 0 = .ok (0, r') ∧ r'.Holds q := by
  obtain ⟨r', e, h'⟩ := C04_drop_last_partial n hn r h q hq 0 (.inr hf)
  exact ⟨r', by simpa using e, by simpa using h'⟩

/-! ## C05 -/

theorem uadd_mod (a b : Nat) : uadd (a % sizeMod) b = (a + b) % sizeMod := by
  rw [uadd_eq, Nat.mod_add_mod]

theorem pushMany_true_overwritten {n : Nat} (hn : 2 ≤ n) : ∀ (vs : List α) {r : Ring α} {q : List α} {l : Nat},
    Rep n r q → r.overwritten = l % sizeMod →
    ∀ {k r'}, r.pushMany vs true = .ok (k, r') → r'.overwritten = (l + (q.length + vs.length - n)) % sizeMod
  | [], r, q, l, h, ho, k, r', e => by
    have := h.qle
    simp only [pushMany] at e
    cases e
    rw [ho]; congr 1; simp; omega
  | v :: vs, r, q, l, h, ho, k, r', e => by
    by_cases hq : q.length < n
    · obtain ⟨r₁, e₁, h₁, o₁⟩ := h.push_space v true hq
      unfold pushMany at e
      simp only [e₁, bind, Except.bind] at e
      cases hp : r₁.pushMany vs true with
      | error f => simp [hp] at e
      | ok x =>
        obtain ⟨k₂, r₂⟩ := x
        simp [hp, pure, Except.pure] at e
        obtain ⟨-, rfl⟩ := e
        rw [pushMany_true_overwritten hn vs h₁ (o₁.trans ho) hp]
        congr 1; simp; omega
    · have hq' : q.length = n := by have := h.qle; omega
      obtain ⟨r₁, e₁, h₁, o₁⟩ := h.push_rollover v hq'
      rw [if_neg (by omega), ho, uadd_mod] at o₁
      unfold pushMany at e
      simp only [e₁, bind, Except.bind] at e
      cases hp : r₁.pushMany vs true with
      | error f => simp [hp] at e
      | ok x =>
        obtain ⟨k₂, r₂⟩ := x
        simp [hp, pure, Except.pure] at e
        obtain ⟨-, rfl⟩ := e
        rw [pushMany_true_overwritten hn vs h₁ o₁ hp]
        congr 1; simp; omega

theorem overrun_step {n : Nat} (hn : 2 ≤ n) {r : Ring α} {q : List α} {l : Nat} (h : Rep n r q)
    (ho : r.overwritten = l % sizeMod) (op : Op α) (hc : Queue.CallerOk op) (hd : Queue.NotDropOrClear op)
    {o r'} (e : r.step op = .ok (o, r')) : r'.overwritten = Queue.lostStep n q l op % sizeMod := by
  have hqle := h.qle
  cases op with
  | push v ro =>
    by_cases hq : q.length < n
    · obtain ⟨r₁, e₁, h₁, o₁⟩ := h.push_space v ro hq
      simp only [Ring.step, e₁, bind, Except.bind, pure, Except.pure] at e
      cases e
      have : ¬ q.length = n := by omega
      simp [Queue.lostStep, this, o₁, ho]
    · have hq' : q.length = n := by omega
      cases ro with
      | false =>
        simp only [Ring.step, h.push_reject v hq', bind, Except.bind, pure, Except.pure] at e
        cases e
        simpa [Queue.lostStep] using ho
      | true =>
        obtain ⟨r₁, e₁, h₁, o₁⟩ := h.push_rollover v hq'
        simp only [Ring.step, e₁, bind, Except.bind, pure, Except.pure] at e
        cases e
        rw [o₁, if_neg (by omega), ho, uadd_mod]
        simp [Queue.lostStep, hq']
  | pushMany vs ro =>
    cases ro with
    | false =>
      obtain ⟨r₁, e₁, h₁, o₁⟩ := Rep.pushMany_false vs h
      simp only [Ring.step, e₁, bind, Except.bind, pure, Except.pure] at e
      cases e
      simpa [Queue.lostStep, o₁] using ho
    | true =>
      obtain ⟨r₁, e₁, h₁⟩ := Rep.pushMany_true vs h
      simp only [Ring.step, e₁, bind, Except.bind, pure, Except.pure] at e
      cases e
      rw [pushMany_true_overwritten hn vs h ho e₁]
      simp [Queue.lostStep]
  | pop =>
    cases q with
    | nil =>
      simp only [Ring.step, h.pop_none, bind, Except.bind, pure, Except.pure] at e
      cases e
      simpa [Queue.lostStep] using ho
    | cons v q =>
      obtain ⟨r₁, e₁, h₁, o₁⟩ := h.pop_some
      simp only [Ring.step, e₁, bind, Except.bind, pure, Except.pure] at e
      cases e
      simpa [Queue.lostStep] using o₁
  | popMany dst k =>
    by_cases hk : k ≤ q.length
    · obtain ⟨r₁, e₁, h₁, o₁, o₂⟩ := Rep.popLoop k dst 0 h hk (by simpa [Queue.CallerOk] using hc)
      simp only [Ring.step, Ring.popMany, h.used, show ¬ q.length < k by omega, if_false, e₁, bind, Except.bind,
        pure, Except.pure] at e
      cases e
      by_cases hk0 : k = 0
      · rw [o₂ hk0]; simpa [Queue.lostStep, hk0] using ho
      · rw [o₁ (by omega)]; simp [Queue.lostStep, hk0, hk]
    · have e₁ := h.popMany_short dst k (by omega)
      simp only [Ring.step, e₁, bind, Except.bind, pure, Except.pure] at e
      cases e
      simpa [Queue.lostStep, hk] using ho
  | peekAt i =>
    simp only [Ring.step, h.peek, bind, Except.bind, pure, Except.pure] at e
    cases e
    simpa [Queue.lostStep] using ho
  | dropLast k => exact absurd hd id
  | dropFirst k => exact absurd hd id
  | clear => exact absurd hd id
  | _ =>
    simp only [Ring.step, pure, Except.pure] at e
    cases e
    simpa [Queue.lostStep] using ho

theorem overrun_run {n : Nat} (hn : 2 ≤ n) : ∀ (ops : List (Op α)) {r : Ring α} {q : List α} {l : Nat},
    Rep n r q → r.overwritten = l % sizeMod → (∀ op ∈ ops, Queue.CallerOk op) →
    (∀ op ∈ ops, Queue.NotDropOrClear op) → ∀ {outs r'}, r.run ops = .ok (outs, r') →
    r'.overwritten = Queue.lost n q l ops % sizeMod
  | [], r, q, l, h, ho, _, _, outs, r', e => by cases e; exact ho
  | op :: ops, r, q, l, h, ho, hc, hd, outs, r', e => by
    have hd' : Queue.NotDropZero op := by
      have := hd op (by simp)
      cases op <;> simp_all [Queue.NotDropOrClear, Queue.NotDropZero]
    obtain ⟨r₁, e₁, h₁⟩ := h.step op (hc op (by simp)) (.inl hd')
    have o₁ := overrun_step hn h ho op (hc op (by simp)) (hd op (by simp)) e₁
    unfold Ring.run at e
    simp only [e₁, bind, Except.bind] at e
    cases hr : r₁.run ops with
    | error f => simp [hr] at e
    | ok y =>
      obtain ⟨os, r₂⟩ := y
      simp only [hr, pure, Except.pure] at e
      cases e
      exact overrun_run hn ops h₁ o₁ (fun o ho => hc o (by simp [ho])) (fun o ho => hd o (by simp [ho])) hr

/-- **C05**, the part that holds: for capacities of at least 2, over every history of pushes and pops,
`overrun_space()` is the number of elements overwritten since the last successful pop (modulo the number of values of `size_t`).
Missing: capacity 1, and histories with drops or clears; see the counterexamples, and `C05_histories` for what it is then. -/
theorem C05_overrun_partial (n : Nat) (hn : 2 ≤ n) (b : Build) (init : α) (ops : List (Op α))
    (hc : ∀ op ∈ ops, Queue.CallerOk op) (hd : ∀ op ∈ ops, Queue.NotDropOrClear op) :
    ∃ r₀ outs r, create b n init = .ok r₀ ∧ r₀.run ops = .ok (outs, r) ∧
      r.overrunSpace = Queue.lost n [] 0 ops % sizeMod := by
  obtain ⟨r₀, e₀, h₀, o₀⟩ := Rep.create (show 0 < n by omega) b init
  have hd' : ∀ op ∈ ops, Queue.NotDropZero op := by
    intro op ho
    have := hd op ho
    cases op <;> simp_all [Queue.NotDropOrClear, Queue.NotDropZero]
  obtain ⟨r, e, h⟩ := Rep.run ops h₀ hc hd'
  exact ⟨r₀, _, r, e₀, e, overrun_run hn ops h₀ (by simp [o₀]) hc hd e⟩

/-- The history of C05 can lose elements, pop, and lose again. -/
example : Queue.lost 2 [] 0 ([.pushMany [1, 2, 3] true, .pop, .pushMany [4, 5, 6] true] : List (Op Nat)) = 2 := by
  decide

/-- The code violates C05 for capacity 1: an element is overwritten, `overrun_space()` says none was. -/
theorem C05_overrun_capacity_one_counterexample :
    ∃ r₀ r : Ring Nat, create .debug 1 0 = .ok r₀ ∧
      r₀.run [.push 1 false, .push 2 true] = .ok ([.bool true, .bool true], r) ∧
      Queue.lost 1 [] 0 ([.push 1 false, .push 2 true] : List (Op Nat)) = 1 ∧ r.overrunSpace = 0 :=
  ⟨_, _, rfl, rfl, rfl, rfl⟩

/-- The code violates C05 after a drop: nothing was ever overwritten, and `overrun_space()` reports
the largest number because of the unsigned subtraction in `drop_last`. -/
theorem C05_overrun_drop_counterexample :
    ∃ r₀ r : Ring Nat, create .debug 4 0 = .ok r₀ ∧
      r₀.run [.push 1 false, .dropLast 1] = .ok ([.bool true, .num 1], r) ∧ r.overrunSpace = sizeMod - 1 :=
  ⟨_, _, rfl, rfl, show usub 0 1 = sizeMod - 1 by simp [usub]⟩

/-! ## C06 -/

/-- **C06**, bulk pop with enough elements: delivers the `k` oldest in order, and touches nothing of the
caller's block beyond them. -/
theorem C06_bulk_pop_enough (n : Nat) (hn : 0 < n) (r : Ring α) (h : Reachable n r) (q : List α)
    (hq : r.Holds q) (dst : List α) (k : Nat) (hd : k ≤ dst.length) (hk : k ≤ q.length) :
    ∃ r', r.popMany dst k = .ok ((k, q.take k ++ dst.drop k), r') ∧ r'.Holds (q.drop k) := by
  obtain ⟨q', hq'⟩ := h.rep hn
  obtain rfl := hq'.holds.unique hq
  obtain ⟨r', e, h'⟩ := hq'.popMany_enough dst k hk hd
  exact ⟨r', e, h'.holds⟩

/-- **C06**, bulk pop with too few elements: returns 0, and changes neither the buffer nor the caller's
block (whatever its size). -/
theorem C06_bulk_pop_short (n : Nat) (hn : 0 < n) (r : Ring α) (h : Reachable n r) (q : List α)
    (hq : r.Holds q) (dst : List α) (k : Nat) (hk : q.length < k) :
    r.popMany dst k = .ok ((0, dst), r) := by
  obtain ⟨q', hq'⟩ := h.rep hn
  obtain rfl := hq'.holds.unique hq
  exact hq'.popMany_short dst k hk

/-- **C06**, bulk push without rollover. -/
theorem C06_bulk_push (n : Nat) (hn : 0 < n) (r : Ring α) (h : Reachable n r) (q : List α)
    (hq : r.Holds q) (vs : List α) :
    ∃ r', r.pushMany vs false = .ok (min vs.length r.freeSpace, r') ∧
      r'.Holds (q ++ vs.take r.freeSpace) := by
  obtain ⟨q', hq'⟩ := h.rep hn
  obtain rfl := hq'.holds.unique hq
  obtain ⟨r', e, h', -⟩ := Rep.pushMany_false vs hq'
  rw [hq'.free]
  exact ⟨r', e, h'.holds⟩

/-! The capacity must be positive: with capacity 0 a release build runs into undefined behaviour on the
first push, a debug build stops in the constructor. -/
theorem C01_capacity_zero :
    (∃ r₀ : Ring Nat, create .release 0 0 = .ok r₀ ∧ r₀.push 1 false = .error .ub) ∧
      (create .debug 0 0 : Res (Ring Nat)) = .error .assertFailed :=
  ⟨⟨_, rfl, rfl⟩, rfl⟩

end Spine
