import Verif.Proofs.RingBuffer
import Verif.Core.Bind
/-!
# C174: pointers to elements of a ring buffer
-/

namespace Spine

/-! ## Specification: where an element of a queue is after a call -/

namespace Queue
variable {α : Type}

/-- How many elements leave a queue of capacity `n` at its old end. -/
def leaves (n : Nat) (q : List α) : Ring.Op α → Nat
  | .push _ rollover => if rollover && q.length == n then 1 else 0
  | .pushMany vs rollover => if rollover then q.length + vs.length - n else 0
  | .pop => min 1 q.length
  | .popMany _ k => if k ≤ q.length then k else 0
  | .dropFirst k => min k q.length
  | _ => 0

/-- How many elements leave a queue at its new end. -/
def leavesLast (q : List α) : Ring.Op α → Nat
  | .dropLast k => min k q.length
  | .clear => q.length
  | _ => 0

/-- The index of the `i`-th oldest element after a call, if it has not left. -/
def index (n : Nat) (q : List α) (i : Nat) (op : Ring.Op α) : Option Nat :=
  if leaves n q op ≤ i ∧ i + leavesLast q op < q.length then some (i - leaves n q op) else none

/-- The index of the `i`-th oldest element after a history, if it has not left. -/
def follow (n : Nat) (q : List α) (i : Nat) : List (Ring.Op α) → Option Nat
  | [] => some i
  | op :: ops => match index n q i op with
    | some j => follow n (step n q op).2 j ops
    | none => none

end Queue

namespace Ring
variable {α : Type} {n : Nat} {r : Ring α} {q : List α}

/-! ## How the calls move the tail -/

private theorem push_tail_false {v : α} {d : Bool} {r' : Ring α} (h : r.push v false = .ok (d, r')) (hr : Rep n r q) : r'.tail = r.tail := by
  by_cases hq : q.length < n
  · have hf : r.isFull = false := by rw [hr.fullIff]; simp; omega
    have hm : umod (r.head + 1) r.buf.length = .ok (wrap n (r.head + 1)) := by
      rw [hr.len]; exact umod_eq hr.pos (by have := hr.headLt; omega)
    have hw : wr r.buf r.head v = .ok (r.buf.set r.head v) := wr_ok (by rw [hr.len]; exact hr.headLt)
    simp only [push, hf, Bool.false_and, Bool.false_eq_true, if_false, hw, hm, res_bind_ok, res_pure] at h
    split at h <;> (cases h; rfl)
  · rw [hr.push_reject v (by have := hr.qle; omega)] at h
    cases h; rfl

private theorem push_tail_true {v : α} {d : Bool} {r' : Ring α} (h : r.push v true = .ok (d, r')) (hr : Rep n r q) :
    r'.tail = wrap n (r.tail + if q.length = n then 1 else 0) := by
  have hm : umod (r.head + 1) r.buf.length = .ok (wrap n (r.head + 1)) := by
    rw [hr.len]; exact umod_eq hr.pos (by have := hr.headLt; omega)
  have hm' : umod (r.tail + 1) r.buf.length = .ok (wrap n (r.tail + 1)) := by
    rw [hr.len]; exact umod_eq hr.pos (by have := hr.tailLt; have := hr.pos; omega)
  have hw : wr r.buf r.head v = .ok (r.buf.set r.head v) := wr_ok (by rw [hr.len]; exact hr.headLt)
  have ht := hr.tailLt
  have hhe := hr.headEq
  by_cases hq : q.length = n
  · have hf : r.isFull = true := by rw [hr.fullIff]; simp [hq]
    have hht : r.head = r.tail := by rw [hhe]; unfold wrap; split <;> omega
    simp only [push, hf, Bool.not_true, Bool.and_false, Bool.false_eq_true, if_false, hw, hm, hm', res_bind_ok, res_pure] at h
    split at h
    · rename_i he
      cases h
      rw [if_pos hq, ← hht, he, hht]
    · simp only [if_true] at h
      cases h
      rw [if_pos hq]
  · have hf : r.isFull = false := by rw [hr.fullIff]; simp [hq]
    simp only [push, hf, Bool.not_true, Bool.and_false, Bool.false_eq_true, if_false, hw, hm, res_bind_ok, res_pure] at h
    rw [if_neg hq]
    have : wrap n (r.tail + 0) = r.tail := by unfold wrap; split <;> omega
    rw [this]
    split at h <;> (cases h; rfl)

private theorem pushMany_tail_false : ∀ (vs : List α) {r r' : Ring α} {q : List α} {k : Nat}, Rep n r q → r.pushMany vs false = .ok (k, r') → r'.tail = r.tail
  | [], r, r', q, k, _, h => by simp only [pushMany] at h; cases h; rfl
  | v :: vs, r, r', q, k, hr, h => by
    simp only [pushMany] at h
    by_cases hq : q.length < n
    · obtain ⟨r₁, e₁, h₁, _⟩ := hr.push_space v false hq
      simp only [e₁, res_bind_ok, Bool.not_true, Bool.false_eq_true, if_false] at h
      obtain ⟨r₂, e₂, h₂, _⟩ := Rep.pushMany_false vs h₁
      simp only [e₂, res_bind_ok, res_pure] at h
      cases h
      rw [pushMany_tail_false vs h₁ e₂, push_tail_false e₁ hr]
    · rw [hr.push_reject v (by have := hr.qle; omega)] at h
      simp only [res_bind_ok, Bool.not_false, if_true, res_pure] at h
      cases h; rfl

private theorem pushMany_tail_true : ∀ (vs : List α) {r r' : Ring α} {q : List α} {k : Nat}, Rep n r q → r.pushMany vs true = .ok (k, r') →
    r'.tail = (r.tail + (q.length + vs.length - n)) % n
  | [], r, r', q, k, hr, h => by
    simp only [pushMany] at h; cases h
    have := hr.qle
    rw [show q.length + ([] : List α).length - n = 0 by simp; omega, Nat.add_zero, Nat.mod_eq_of_lt hr.tailLt]
  | v :: vs, r, r', q, k, hr, h => by
    simp only [pushMany] at h
    have hqle := hr.qle
    have hpos := hr.pos
    have hstep : ∃ r₁ q₁, r.push v true = .ok (true, r₁) ∧ Rep n r₁ q₁ ∧ q₁.length = (if q.length = n then n else q.length + 1) := by
      by_cases hq : q.length < n
      · obtain ⟨r₁, e₁, h₁, _⟩ := hr.push_space v true hq
        exact ⟨r₁, _, e₁, h₁, by simp [Nat.ne_of_lt hq]⟩
      · have hq' : q.length = n := by omega
        obtain ⟨r₁, e₁, h₁, _⟩ := hr.push_rollover v hq'
        exact ⟨r₁, _, e₁, h₁, by simp [hq']; omega⟩
    obtain ⟨r₁, q₁, e₁, h₁, hl⟩ := hstep
    simp only [e₁, res_bind_ok, Bool.not_true, Bool.false_eq_true, if_false] at h
    obtain ⟨r₂, e₂, h₂⟩ := Rep.pushMany_true vs h₁
    simp only [e₂, res_bind_ok, res_pure] at h
    cases h
    rw [pushMany_tail_true vs h₁ e₂, push_tail_true e₁ hr, hl, ← mod_eq_wrap (by have := hr.tailLt; split <;> omega), Nat.mod_add_mod]
    congr 1
    simp only [List.length_cons]
    split <;> omega

private theorem pop_tail {v : α} {x : Option α} {r' : Ring α} (hr : Rep n r (v :: q)) (h : r.pop = .ok (x, r')) : r'.tail = (r.tail + 1) % n := by
  have he := hr.emptyEq
  have hrd : rd r.buf r.tail = .ok v := by
    have := hr.slots 0 (by simp)
    have hw : wrap n (r.tail + 0) = r.tail := by have := hr.tailLt; unfold wrap; split <;> omega
    rw [hw] at this
    exact rd_ok this
  have hm' : umod (r.tail + 1) r.buf.length = .ok (wrap n (r.tail + 1)) := by
    rw [hr.len]; exact umod_eq hr.pos (by have := hr.tailLt; have := hr.pos; omega)
  simp only [pop, he, List.length_cons, Nat.add_eq_zero_iff, Nat.one_ne_zero, and_false, decide_false, decide_eq_true_eq, Bool.false_eq_true, if_false, ↓reduceIte, hrd, hm', res_bind_ok, res_pure] at h
  cases h
  exact (mod_eq_wrap (by have := hr.tailLt; have := hr.pos; omega)).symm

private theorem popLoop_tail : ∀ (k : Nat) {r r' : Ring α} {q : List α} {dst dst' : List α} {i : Nat}, Rep n r q → k ≤ q.length → i + k ≤ dst.length →
    r.popLoop dst i k = .ok (dst', r') → r'.tail = (r.tail + k) % n
  | 0, r, r', q, dst, dst', i, hr, _, _, h => by
    simp only [popLoop] at h; cases h
    rw [Nat.add_zero, Nat.mod_eq_of_lt hr.tailLt]
  | k + 1, r, r', [], dst, dst', i, _, hk, _, _ => by simp at hk
  | k + 1, r, r', v :: q, dst, dst', i, hr, hk, hd, h => by
    obtain ⟨r₁, e₁, h₁, _⟩ := hr.pop_some
    simp only [popLoop, e₁, res_bind_ok, wr_ok (show i < dst.length by omega)] at h
    rw [popLoop_tail k h₁ (by simpa using hk) (by simp; omega) h, pop_tail hr e₁, Nat.mod_add_mod]
    congr 1; omega

private theorem step_tail {op : Op α} {o : Out α} {r' : Ring α} (hr : Rep n r q) (hc : Queue.CallerOk op) (h : r.step op = .ok (o, r')) :
    r'.tail = (r.tail + Queue.leaves n q op) % n := by
  have h0 : r.tail = (r.tail + 0) % n := by rw [Nat.add_zero, Nat.mod_eq_of_lt hr.tailLt]
  have hpos := hr.pos
  have hqle := hr.qle
  have htl := hr.tailLt
  cases op with
  | push v ro =>
    simp only [step] at h
    cases hp : r.push v ro with
    | error f => rw [hp] at h; simp at h
    | ok p =>
      obtain ⟨d, r₁⟩ := p
      rw [hp] at h
      simp only [res_bind_ok, res_pure] at h
      cases h
      cases ro with
      | false => simpa [Queue.leaves] using (push_tail_false hp hr).trans h0
      | true =>
        rw [push_tail_true hp hr, ← mod_eq_wrap (by split <;> omega)]
        simp [Queue.leaves]
  | pushMany vs ro =>
    simp only [step] at h
    cases hp : r.pushMany vs ro with
    | error f => rw [hp] at h; simp at h
    | ok p =>
      obtain ⟨d, r₁⟩ := p
      rw [hp] at h
      simp only [res_bind_ok, res_pure] at h
      cases h
      cases ro with
      | false => simpa [Queue.leaves] using (pushMany_tail_false vs hr hp).trans h0
      | true => simpa [Queue.leaves] using pushMany_tail_true vs hr hp
  | pop =>
    simp only [step] at h
    cases q with
    | nil =>
      simp only [hr.pop_none, res_bind_ok, res_pure] at h
      cases h
      simpa [Queue.leaves] using h0
    | cons v q =>
      cases hp : r.pop with
      | error f => rw [hp] at h; simp at h
      | ok p =>
        obtain ⟨d, r₁⟩ := p
        rw [hp] at h
        simp only [res_bind_ok, res_pure] at h
        cases h
        rw [pop_tail hr hp]
        simp [Queue.leaves, Nat.min_eq_left]
  | popMany dst k =>
    simp only [step, popMany, hr.used] at h
    by_cases hk : k ≤ q.length
    · simp only [Nat.not_lt.mpr hk, if_false] at h
      cases hp : r.popLoop dst 0 k with
      | error f => rw [hp] at h; simp at h
      | ok p =>
        obtain ⟨d, r₁⟩ := p
        rw [hp] at h
        simp only [res_bind_ok, res_pure] at h
        cases h
        rw [popLoop_tail k hr hk (by simpa [Queue.CallerOk] using hc) hp]
        simp [Queue.leaves, hk]
    · simp only [Nat.not_le.mp hk, if_true, res_pure, res_bind_ok] at h
      cases h
      simpa [Queue.leaves, hk] using h0
  | peekAt i =>
    simp only [step, hr.peek, res_bind_ok, res_pure] at h
    cases h
    simpa [Queue.leaves] using h0
  | dropLast k =>
    simp only [step, dropLast, retractHead] at h
    simp only [umod, hr.len, show n ≠ 0 by omega, if_false, res_bind_ok, res_pure] at h
    cases h
    simpa [Queue.leaves] using h0
  | dropFirst k =>
    simp only [step, dropFirst, advanceTail, hr.used] at h
    simp only [umod, hr.len, show n ≠ 0 by omega, if_false, res_bind_ok, res_pure] at h
    cases h
    simp [Queue.leaves, Nat.min_comm]
  | clear =>
    simp only [step, clear, dropLast, retractHead] at h
    simp only [umod, hr.len, show n ≠ 0 by omega, if_false, res_bind_ok, res_pure] at h
    cases h
    simpa [Queue.leaves] using h0
  | usedSpace => simp only [step, res_pure] at h; cases h; simpa [Queue.leaves] using h0
  | freeSpace => simp only [step, res_pure] at h; cases h; simpa [Queue.leaves] using h0
  | empty => simp only [step, res_pure] at h; cases h; simpa [Queue.leaves] using h0
  | full => simp only [step, res_pure] at h; cases h; simpa [Queue.leaves] using h0
  | capacity => simp only [step, res_pure] at h; cases h; simpa [Queue.leaves] using h0

/-- The index really is that of the element. -/
theorem Queue_index {i j : Nat} {op : Op α} (hq : q.length ≤ n) (h : Queue.index n q i op = some j) :
    i < q.length ∧ j + Queue.leaves n q op = i ∧ (Queue.step n q op).2[j]? = q[i]? := by
  unfold Queue.index at h
  split at h
  case isFalse => cases h
  case isTrue hc =>
  obtain ⟨h1, h2⟩ := hc
  cases h
  refine ⟨by omega, by omega, ?_⟩
  have hiq : i < q.length := by omega
  cases op with
  | push v ro =>
    simp only [Queue.leaves, Queue.step] at h1 ⊢
    by_cases hlt : q.length < n
    · have : ¬ q.length = n := by omega
      simp only [hlt, if_true, beq_iff_eq, this, Bool.and_eq_true, and_false, if_false, Nat.sub_zero]
      rw [List.getElem?_append_left hiq]
    · have he : q.length = n := by omega
      cases ro with
      | false => simp [hlt]
      | true =>
        simp only [Bool.true_and, beq_iff_eq, he, if_true] at h1 ⊢
        simp only [Nat.lt_irrefl, if_false]
        rw [List.getElem?_append_left (by simp; omega), List.getElem?_drop]
        congr 1; omega
  | pushMany vs ro =>
    simp only [Queue.leaves, Queue.step] at h1 ⊢
    cases ro with
    | false =>
      simp only [Bool.false_eq_true, if_false, Nat.sub_zero]
      rw [List.getElem?_append_left hiq]
    | true =>
      simp only [if_true] at h1 ⊢
      simp only [Queue.newest, List.getElem?_drop, List.length_append]
      rw [show q.length + vs.length - n + (i - (q.length + vs.length - n)) = i by omega, List.getElem?_append_left hiq]
  | pop =>
    simp only [Queue.leaves, Queue.step] at h1 ⊢
    rw [Nat.min_eq_left (by omega)] at h1 ⊢
    cases q with
    | nil => simp at hiq
    | cons v q =>
      obtain ⟨i', rfl⟩ : ∃ i', i = i' + 1 := ⟨i - 1, by omega⟩
      simp
  | popMany dst k =>
    simp only [Queue.leaves, Queue.step] at h1 ⊢
    split
    · rename_i hk
      simp only [hk, if_true] at h1
      rw [List.getElem?_drop]; congr 1; omega
    · rfl
  | dropFirst k =>
    simp only [Queue.leaves, Queue.step] at h1 ⊢
    rw [List.getElem?_drop]; congr 1; omega
  | dropLast k =>
    simp only [Queue.leavesLast] at h2
    simp only [Queue.leaves, Queue.step, Nat.sub_zero]
    rw [List.getElem?_take_of_lt (by omega)]
  | clear => simp only [Queue.leavesLast] at h2; omega
  | peekAt i => simp [Queue.step, Queue.leaves]
  | usedSpace => simp [Queue.step, Queue.leaves]
  | freeSpace => simp [Queue.step, Queue.leaves]
  | empty => simp [Queue.step, Queue.leaves]
  | full => simp [Queue.step, Queue.leaves]
  | capacity => simp [Queue.step, Queue.leaves]

private theorem follow_rep : ∀ (ops : List (Op α)) {r : Ring α} {q : List α} {i j : Nat}, Rep n r q → i < q.length → (∀ op ∈ ops, Queue.CallerOk op) →
    (∀ op ∈ ops, Queue.NotDropZero op) → Queue.follow n q i ops = some j →
    ∃ outs r' q', r.run ops = .ok (outs, r') ∧ Rep n r' q' ∧ j < q'.length ∧ q'[j]? = q[i]? ∧ (r'.tail + j) % n = (r.tail + i) % n
  | [], r, q, i, j, hr, hi, _, _, h => by
    simp only [Queue.follow] at h; cases h
    exact ⟨[], r, q, rfl, hr, hi, rfl, rfl⟩
  | op :: ops, r, q, i, j, hr, hi, hc, hd, h => by
    simp only [Queue.follow] at h
    cases hx : Queue.index n q i op with
    | none => rw [hx] at h; cases h
    | some k =>
      rw [hx] at h
      obtain ⟨hk1, hk2, hk3⟩ := Queue_index hr.qle hx
      obtain ⟨r₁, e₁, h₁⟩ := hr.step op (hc op (by simp)) (.inl (hd op (by simp)))
      have ht := step_tail hr (hc op (by simp)) e₁
      have hklt : k < (Queue.step n q op).2.length := by
        refine Nat.lt_of_not_le fun hge => ?_
        rw [List.getElem?_eq_none (by omega), List.getElem?_eq_getElem hi] at hk3
        cases hk3
      obtain ⟨outs, r₂, q₂, e₂, h₂, h3, h4, h5⟩ := follow_rep ops h₁ hklt (fun o ho => hc o (by simp [ho])) (fun o ho => hd o (by simp [ho])) h
      refine ⟨(Queue.step n q op).1 :: outs, r₂, q₂, ?_, h₂, h3, h4.trans hk3, ?_⟩
      · simp only [run, e₁, e₂, res_bind_ok, res_pure]
      · rw [h5, ht, Nat.mod_add_mod]
        congr 1; omega

/-- **C174**: a pointer to the `i`-th oldest element, obtained from `peek_at`, points at this element, in its place in the storage, after every history of calls in
which the element has not left the buffer; and `peek_at` gives the same pointer for it at the index it has then. -/
theorem C174_pointer (hn : 0 < n) (hr : Reachable n r) (hq : r.Holds q) {i j p : Nat} {ops : List (Op α)} (hc : ∀ op ∈ ops, Queue.CallerOk op)
    (hd : ∀ op ∈ ops, Queue.NotDropZero op) (hp : r.peekPtrAt i = .ok (some p)) (hf : Queue.follow n q i ops = some j) :
    ∃ outs r' x, r.run ops = .ok (outs, r') ∧ q[i]? = some x ∧ rd r'.buf p = .ok x ∧ r'.peekPtrAt j = .ok (some p) ∧ r'.Holds (Queue.run n q ops).2 ∧
      (Queue.run n q ops).2[j]? = some x := by
  obtain ⟨q₀, hrep⟩ := hr.rep hn
  obtain rfl := Holds.unique hq hrep.holds
  have hi : i < q.length := by
    refine Nat.lt_of_not_le fun hge => ?_
    rw [hrep.peekPtr_none (by omega)] at hp
    cases hp
  rw [hrep.peekPtr hi] at hp
  simp only [Except.ok.injEq, Option.some.injEq] at hp
  obtain ⟨outs, r', q', e, h', hj, hx, ht⟩ := follow_rep ops hrep hi hc hd hf
  obtain ⟨r'', e'', h''⟩ := Rep.run ops hrep hc hd
  rw [e] at e''
  simp only [Except.ok.injEq, Prod.mk.injEq] at e''
  obtain ⟨rfl, rfl⟩ := e''
  obtain rfl := Holds.unique h'.holds h''.holds
  have hw : wrap n (r'.tail + j) = p := by
    rw [← hp, ← mod_eq_wrap (by have := h'.tailLt; have := h'.qle; omega), ← mod_eq_wrap (by have := hrep.tailLt; have := hrep.qle; omega), ht]
  have hgi : q[i]? = some q[i] := List.getElem?_eq_getElem hi
  refine ⟨_, r', q[i], e, hgi, rd_ok ?_, ?_, h'.holds, hx.trans hgi⟩
  · rw [← hw, h'.slots j hj, ← List.getElem?_eq_getElem hj, hx, hgi]
  · rw [h'.peekPtr hj, hw]

/-- **C174**: writing through the pointer changes this element and no other. -/
theorem C174_write (hn : 0 < n) (hr : Reachable n r) (hq : r.Holds q) {i p : Nat} (hp : r.peekPtrAt i = .ok (some p)) (x : α) :
    ∃ buf, wr r.buf p x = .ok buf ∧ ({ r with buf := buf } : Ring α).Holds (q.set i x) := by
  obtain ⟨q₀, hrep⟩ := hr.rep hn
  obtain rfl := Holds.unique hq hrep.holds
  have hi : i < q.length := by
    refine Nat.lt_of_not_le fun hge => ?_
    rw [hrep.peekPtr_none (by omega)] at hp
    cases hp
  rw [hrep.peekPtr hi] at hp
  simp only [Except.ok.injEq, Option.some.injEq] at hp
  have hlt : p < r.buf.length := by
    rw [← hp, hrep.len]; exact wrap_lt (by have := hrep.tailLt; have := hrep.qle; omega)
  refine ⟨_, wr_ok hlt, Rep.holds (n := n) ⟨by simp [hrep.len], hrep.pos, hrep.tailLt, by simpa using hrep.qle, by simpa using hrep.headEq, by simpa using hrep.fullIff, ?_⟩⟩
  intro k hk
  simp only [List.length_set] at hk
  have htl := hrep.tailLt
  have hqle := hrep.qle
  by_cases hki : k = i
  · subst hki
    rw [hp, List.getElem?_set_self hlt]; simp
  · have hne : p ≠ wrap n (r.tail + k) := by
      rw [← hp]; unfold wrap; split <;> split <;> omega
    rw [List.getElem?_set_ne hne, hrep.slots k hk, List.getElem_set_ne (by omega)]

/-- **C174**: after an element has left the buffer its place is used for others: in a buffer of any capacity, after popping the oldest element and filling up the buffer, the pointer to
the popped element points at the newest one. -/
theorem C174_left (hn : 0 < n) (hr : Reachable n r) (hq : r.Holds q) (hfull : q.length = n) {p : Nat} (hp : r.peekPtrAt 0 = .ok (some p)) (x : α) :
    ∃ outs r', r.run [.pop, .push x false] = .ok (outs, r') ∧ rd r'.buf p = .ok x := by
  obtain ⟨q₀, hrep⟩ := hr.rep hn
  obtain rfl := Holds.unique hq hrep.holds
  rw [hrep.peekPtr (by omega)] at hp
  simp only [Except.ok.injEq, Option.some.injEq] at hp
  cases q with
  | nil => simp at hfull; omega
  | cons v q =>
    obtain ⟨r₁, e₁, h₁, _⟩ := hrep.pop_some
    have hl : q.length < n := by simp at hfull; omega
    obtain ⟨r₂, e₂, h₂, _⟩ := h₁.push_space x false hl
    have ht1 := pop_tail hrep e₁
    have ht2 := push_tail_false e₂ h₁
    refine ⟨[.val (some v), .bool true], r₂, by simp [run, step, e₁, e₂], rd_ok ?_⟩
    have hs := h₂.slots q.length (by simp)
    simp only [List.getElem_concat_length] at hs
    rw [← hs]
    congr 1
    rw [← hp, ht2, ht1]
    have htl := hrep.tailLt
    simp only [List.length_cons] at hfull
    rw [mod_eq_wrap (by omega)]
    unfold wrap
    repeat' split
    all_goals omega

/-- In a buffer for three elements holding 1, 2 and 3: a pointer to 3; after popping 1 and 2 and pushing 4 and 5 with rollover, it is still a pointer to 3, now the oldest. -/
example : (do
    let r ← create .debug 3 0
    let (_, r) ← r.run [.pushMany [1, 2, 3] false]
    let p ← r.peekPtrAt 2
    let (_, r') ← r.run [.pop, .pushMany [4] true, .pop, .push 5 false]
    return (p, r'.buf, ← r'.peekPtrAt 0) : Res (Option Nat × List Nat × Option Nat)) = .ok (some 2, [4, 5, 3], some 2) ∧
    Queue.follow 3 [1, 2, 3] 2 [.pop, .pushMany [4] true, .pop, .push 5 false] = some 0 := ⟨by rfl, by rfl⟩

end Ring
end Spine
