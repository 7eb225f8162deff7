import Verif.Model.RingInterrupt
import Verif.Props.RingBuffer
/-!
# Property C136: a ring buffer between an interrupt handler and the main program
-/

namespace Spine.Ring

variable {α : Type} {n : Nat} {r : Ring α} {q : List α}

namespace Interrupted

theorem push_tail (h : Rep n r q) {v : α} (hq : q.length < n) {d : Bool} {r' : Ring α}
    (e : r.push v false = .ok (d, r')) : r'.tail = r.tail := by
  have hf : r.isFull = false := by rw [h.fullIff]; simp; omega
  have hl := h.headLt
  unfold push at e
  have hw : wr r.buf r.head v = .ok (r.buf.set r.head v) := wr_ok (by rw [h.len]; omega)
  have hm : umod (r.head + 1) r.buf.length = .ok (wrap n (r.head + 1)) := by
    rw [h.len]; exact umod_eq h.pos (by omega)
  simp only [hf, Bool.false_and, Bool.false_eq_true, if_false, hw, hm, res_bind_ok, res_pure] at e
  split at e <;> cases e <;> rfl

theorem isrPush_rep : ∀ (vs : List α) {r : Ring α} {q : List α}, Rep n r q →
    ∃ r', r.isrPush vs = .ok (vs.take (n - q.length), r') ∧ Rep n r' (q ++ vs.take (n - q.length)) ∧ r'.tail = r.tail
  | [], r, q, h => ⟨r, by simp [isrPush], by simpa using h, rfl⟩
  | v :: vs, r, q, h => by
    by_cases hq : q.length < n
    · obtain ⟨r₁, e₁, h₁, -⟩ := h.push_space v false hq
      obtain ⟨r₂, e₂, h₂, t₂⟩ := isrPush_rep vs h₁
      have hk : n - q.length = (n - (q ++ [v]).length) + 1 := by simp; omega
      refine ⟨r₂, ?_, ?_, t₂.trans (push_tail h hq e₁)⟩
      · rw [isrPush]
        simp only [e₁, e₂, res_bind_ok, res_pure, if_true]
        rw [hk, List.take_succ_cons]
      · rw [hk, List.take_succ_cons]
        simpa using h₂
    · have hq' : q.length = n := by have := h.qle; omega
      obtain ⟨r₂, e₂, h₂, t₂⟩ := isrPush_rep vs h
      refine ⟨r₂, ?_, ?_, t₂⟩
      · rw [isrPush]
        simp only [h.push_reject v hq', e₂, res_bind_ok, res_pure]
        simp [hq']
      · simpa [hq'] using h₂

/-- While `m_is_full` is set, the handler's pushes are refused. -/
theorem isrPush_full : ∀ (vs : List α) {r : Ring α}, r.isFull = true → r.isrPush vs = .ok ([], r)
  | [], r, _ => rfl
  | v :: vs, r, h => by
    have : r.push v false = .ok (false, r) := by unfold push; simp [h]
    simp [isrPush, this, isrPush_full vs h]

/-- `m_tail` advanced, `m_is_full` not cleared yet. -/
theorem advance {v : α} (h : Rep n r (v :: q)) (hq : q.length + 1 < n) : Rep n { r with tail := wrap n (r.tail + 1) } q := by
  obtain ⟨h1, h2, h3, h4, h5, h6, h7⟩ := h
  simp only [List.length_cons] at h4 h5 h6
  refine ⟨h1, h2, wrap_lt (by omega), by omega, ?_, by simp [h6]; omega, ?_⟩
  · show r.head = wrap n (wrap n (r.tail + 1) + q.length)
    rw [h5]; unfold wrap; repeat' split
    all_goals omega
  · intro i hi
    have := h7 (i + 1) (by simp; omega)
    show r.buf[wrap n (wrap n (r.tail + 1) + i)]? = _
    have he : wrap n (wrap n (r.tail + 1) + i) = wrap n (r.tail + (i + 1)) := by
      unfold wrap; repeat' split
      all_goals omega
    rw [he, this]; simp

theorem advance_clear {v : α} (h : Rep n r (v :: q)) : Rep n { r with tail := wrap n (r.tail + 1), isFull := false } q := by
  obtain ⟨h1, h2, h3, h4, h5, h6, h7⟩ := h
  simp only [List.length_cons] at h4 h5 h6
  refine ⟨h1, h2, wrap_lt (by omega), by omega, ?_, by simp; omega, ?_⟩
  · show r.head = wrap n (wrap n (r.tail + 1) + q.length)
    rw [h5]; unfold wrap; repeat' split
    all_goals omega
  · intro i hi
    have := h7 (i + 1) (by simp; omega)
    show r.buf[wrap n (wrap n (r.tail + 1) + i)]? = _
    have he : wrap n (wrap n (r.tail + 1) + i) = wrap n (r.tail + (i + 1)) := by
      unfold wrap; repeat' split
      all_goals omega
    rw [he, this]; simp

theorem over {k : Nat} (h : Rep n r q) : Rep n { r with overwritten := k } q :=
  ⟨h.len, h.pos, h.tailLt, h.qle, h.headEq, h.fullIff, h.slots⟩

theorem clear_full (h : Rep n r q) (hq : q.length = n) : Rep n { r with isFull := false } [] := by
  have ht := h.tailLt
  have hp := h.pos
  refine ⟨h.len, h.pos, h.tailLt, by simp, ?_, by simp; omega, by simp⟩
  show r.head = wrap n (r.tail + 0)
  rw [h.headEq, hq]
  unfold wrap
  repeat' split
  all_goals omega

theorem clear_space (h : Rep n r q) (hq : q.length < n) : Rep n { r with isFull := false } q :=
  ⟨h.len, h.pos, h.tailLt, h.qle, h.headEq, by simp; omega, h.slots⟩

theorem read {v : α} (h : Rep n r (v :: q)) : rd r.buf r.tail = .ok v := by
  have := h.slots 0 (by simp)
  have ht := h.tailLt
  have hw : wrap n (r.tail + 0) = r.tail := by unfold wrap; split <;> omega
  rw [hw] at this
  exact rd_ok this

theorem next_tail (h : Rep n r q) : umod (r.tail + 1) r.buf.length = .ok (wrap n (r.tail + 1)) := by
  have := h.tailLt
  rw [h.len]; exact umod_eq h.pos (by omega)

theorem head_eq_tail (h : Rep n r q) : r.head = r.tail ↔ q = [] ∨ q.length = n := by
  have ht := h.tailLt
  have hl := h.qle
  have hp := h.pos
  rw [h.headEq]
  have hnil : q = [] ↔ q.length = 0 := by simp
  rw [hnil]
  unfold wrap
  split <;> omega

/-- The state of an interrupted `pop` before `m_tail` is written. -/
theorem pop_start (h : Rep n r q) (a0 a1 a2 : List α) :
    ((q = [] ∧ a0 = [] ∨ q.length < n ∧ n ≤ q.length + a0.length) ∧ ∀ a3 a4, ∃ r', r.popInterrupted a0 a1 a2 a3 a4 =
      .ok ((none, a0.take (n - q.length)), r') ∧ Rep n r' (q ++ a0.take (n - q.length))) ∨
    (¬(q = [] ∧ a0 = [] ∨ q.length < n ∧ n ≤ q.length + a0.length) ∧ ∃ r₁ v q', Rep n r₁ (v :: q') ∧ q ++ (a0 ++ a1 ++ a2).take (n - q.length) = v :: q' ∧ ∀ a3 a4, r.popInterrupted a0 a1 a2 a3 a4 = (do
      let (c3, r) ← isrPush { r₁ with tail := wrap n (r₁.tail + 1) } a3
      let (c4, r) ← isrPush { r with isFull := false } a4
      return ((some v, (a0 ++ a1 ++ a2).take (n - q.length) ++ c3 ++ c4), { r with overwritten := 0 }))) := by
  have hl := h.qle
  have hpos := h.pos
  obtain ⟨r₀, e₀, h₀, t₀⟩ := isrPush_rep a0 h
  have hnil : q = [] ↔ q.length = 0 := by simp
  have hnil0 : a0 = [] ↔ a0.length = 0 := by simp
  have hht := head_eq_tail h₀
  rw [List.append_eq_nil_iff] at hht
  by_cases hc : (q = [] ∧ a0 = []) ∨ (q.length < n ∧ n ≤ q.length + a0.length)
  · refine .inl ⟨hc, fun a3 a4 => ⟨r₀, ?_, h₀⟩⟩
    have hf : r.isFull = false := by
      rw [h.fullIff]; simp
      rcases hc with ⟨hc, -⟩ | ⟨hc, -⟩
      · rw [hnil] at hc; omega
      · omega
    have : r₀.head = r₀.tail := by
      rw [hht]
      rcases hc with ⟨rfl, rfl⟩ | ⟨hc, hc'⟩
      · exact .inl (by simp)
      · refine .inr ?_
        simp; omega
    unfold popInterrupted
    simp [e₀, hf, this]
  · obtain ⟨r₁, e₁, h₁, t₁⟩ := isrPush_rep a1 h₀
    obtain ⟨r₂, e₂, h₂, t₂⟩ := isrPush_rep a2 h₁
    have htake : a0.take (n - q.length) ++ a1.take (n - (q ++ a0.take (n - q.length)).length) ++
        a2.take (n - (q ++ a0.take (n - q.length) ++ a1.take (n - (q ++ a0.take (n - q.length)).length)).length) =
        (a0 ++ a1 ++ a2).take (n - q.length) := by
      rw [List.take_append, List.take_append]
      congr 1
      · congr 2
        simp; omega
      · congr 1
        simp; omega
    have hq2 : q ++ a0.take (n - q.length) ++ a1.take (n - (q ++ a0.take (n - q.length)).length) ++
        a2.take (n - (q ++ a0.take (n - q.length) ++ a1.take (n - (q ++ a0.take (n - q.length)).length)).length) =
        q ++ (a0 ++ a1 ++ a2).take (n - q.length) := by
      rw [← htake]; simp only [List.append_assoc]
    have hne0 : q ++ a0.take (n - q.length) ≠ [] := by
      intro h0
      rw [List.append_eq_nil_iff] at h0
      obtain ⟨h0, h0'⟩ := h0
      rw [hnil] at h0
      rw [List.take_eq_nil_iff] at h0'
      rcases h0' with h0' | h0'
      · omega
      · exact hc (.inl ⟨hnil.mpr h0, h0'⟩)
    obtain ⟨v, q0', hv0⟩ := List.exists_cons_of_ne_nil hne0
    have hv1 : ∃ q1', q ++ a0.take (n - q.length) ++ a1.take (n - (q ++ a0.take (n - q.length)).length) = v :: q1' := by
      rw [hv0]; exact ⟨_, rfl⟩
    obtain ⟨q1', hv1⟩ := hv1
    have hv2 : ∃ q2', q ++ (a0 ++ a1 ++ a2).take (n - q.length) = v :: q2' := by
      rw [← hq2, hv1]; exact ⟨_, rfl⟩
    obtain ⟨q2', hv2⟩ := hv2
    rw [hq2, hv2] at h₂
    refine .inr ⟨hc, r₂, v, q2', h₂, hv2, fun a3 a4 => ?_⟩
    have hcond : (!r.isFull && r₀.head == r₀.tail) = false := by
      rw [Bool.and_eq_false_iff]
      by_cases hf : q.length = n
      · left; rw [h.fullIff]; simp [hf]
      · right
        rw [beq_eq_false_iff_ne, ne_eq, hht]
        rintro (⟨rfl, h0⟩ | h0)
        · rw [List.take_eq_nil_iff] at h0
          rcases h0 with h0 | h0
          · simp at h0; omega
          · exact hc (.inl ⟨rfl, h0⟩)
        · simp at h0
          exact hc (.inr ⟨by omega, by omega⟩)
    rw [hv1] at h₁
    have hrd := read h₁
    unfold popInterrupted
    simp only [e₀, res_bind_ok, hcond, Bool.false_eq_true, if_false, e₁, hrd, e₂, next_tail h₂, htake]

end Interrupted

open Interrupted

/-- Without interrupts these are `pop` and `push`, whatever the state. -/
theorem C136_uninterrupted (r : Ring α) (v : α) :
    r.popInterrupted [] [] [] [] [] = r.pop.map (fun p => ((p.1, []), p.2)) ∧
      r.pushInterrupted v 0 0 0 0 = (r.push v false).map (fun p => ((p.1, []), p.2)) := by
  constructor
  · unfold popInterrupted pop empty full
    simp only [isrPush, res_bind_ok]
    split
    · rfl
    · cases rd r.buf r.tail <;> simp [Except.map] <;> cases umod (r.tail + 1) r.buf.length <;> rfl
  · unfold pushInterrupted push
    simp only [isrPop, res_bind_ok]
    cases hf : r.isFull
    · cases hw : wr r.buf r.head v
      · simp [Except.map]
      · rename_i buf
        have hl : buf.length = r.buf.length := by
          unfold wr at hw
          split at hw <;> cases hw
          simp
        simp only [res_bind_ok, hl]
        cases hm : umod (r.head + 1) r.buf.length
        · simp [Except.map, hm]
        · simp [Except.map, hm, hf]
          split <;> simp_all
    · simp [Except.map]

/-- **C136** for a handler that pushes while the main program pops, the part that holds: unless the handler fills the buffer
after `m_tail` was written and before `m_is_full` was cleared, no element is lost, repeated or moved. (It cannot if it pushes at most
one element there, or if it has filled the buffer before.) `pop` returns false for a buffer that is empty, or that the handler fills while `empty()` runs;
and nothing is refused if there is room for everything from the start. -/
theorem C136_pop_partial (hn : 0 < n) (h : Reachable n r) (hq : r.Holds q) (a0 a1 a2 a3 a4 : List α)
    (hsafe : n ≤ q.length + a0.length + a1.length + a2.length ∨ q.length + a0.length + a1.length + a2.length + a3.length ≤ n) :
    ∃ popped accepted q' r', r.popInterrupted a0 a1 a2 a3 a4 = .ok ((popped, accepted), r') ∧ r'.Holds q' ∧
      popped.toList ++ q' = q ++ accepted ∧ accepted.Sublist (a0 ++ a1 ++ a2 ++ a3 ++ a4) ∧
      (popped = none ↔ q = [] ∧ a0 = [] ∨ q.length < n ∧ n ≤ q.length + a0.length) ∧
      (popped ≠ none → q.length + a0.length + a1.length + a2.length + a3.length + a4.length ≤ n →
        accepted = a0 ++ a1 ++ a2 ++ a3 ++ a4) := by
  obtain ⟨q₀, hq₀⟩ := h.rep hn
  obtain rfl := hq₀.holds.unique hq
  have hl := hq₀.qle
  rcases pop_start hq₀ a0 a1 a2 with ⟨hc, hx⟩ | ⟨hc, r₁, v, q', h₁, hv, hx⟩
  · obtain ⟨r', e, h'⟩ := hx a3 a4
    refine ⟨none, _, _, r', e, h'.holds, rfl, ?_, by simp [hc], by simp⟩
    simp only [List.append_assoc]
    exact (List.take_sublist _ _).trans (List.sublist_append_left _ _)
  · have hlen : (v :: q').length = min n (q₀.length + a0.length + a1.length + a2.length) := by
      rw [← hv]; simp; omega
    simp only [List.length_cons] at hlen
    by_cases hfull : q'.length + 1 = n
    · have hf : r₁.isFull = true := by rw [h₁.fullIff]; simp [hfull]
      have h₃ := advance_clear h₁
      obtain ⟨r₄, e₄, h₄, -⟩ := isrPush_rep a4 h₃
      refine ⟨some v, (a0 ++ a1 ++ a2).take (n - q₀.length) ++ a4.take (n - q'.length), _, { r₄ with overwritten := 0 }, ?_, (over h₄).holds,
        ?_, ?_, by simp [hc], ?_⟩
      · rw [hx]
        simp only [isrPush_full a3 (r := { r₁ with tail := wrap n (r₁.tail + 1) }) hf, res_bind_ok, e₄, res_pure, List.append_nil]
      · rw [← List.append_assoc q₀, hv]
        simp
      · exact ((List.take_sublist _ _).trans (List.sublist_append_left _ _)).append (List.take_sublist _ _)
      · intro _ hroom
        have h3 : a3 = [] := List.eq_nil_of_length_eq_zero (by omega)
        have h4 : a4 = [] := List.eq_nil_of_length_eq_zero (by omega)
        subst h3 h4
        simp [List.take_of_length_le (l := a0 ++ (a1 ++ a2)) (i := n - q₀.length) (by simp; omega)]
    · have hlt : q'.length + 1 < n := by omega
      have h₂ := advance h₁ hlt
      obtain ⟨r₃, e₃, h₃, -⟩ := isrPush_rep a3 h₂
      have hspace : (q' ++ a3.take (n - q'.length)).length < n := by simp; omega
      obtain ⟨r₄, e₄, h₄, -⟩ := isrPush_rep a4 (clear_space h₃ hspace)
      refine ⟨some v, (a0 ++ a1 ++ a2).take (n - q₀.length) ++ a3.take (n - q'.length) ++
        a4.take (n - (q' ++ a3.take (n - q'.length)).length), _, { r₄ with overwritten := 0 }, ?_, (over h₄).holds, ?_, ?_, by simp [hc], ?_⟩
      · rw [hx]
        simp only [e₃, res_bind_ok, e₄, res_pure]
      · rw [← List.append_assoc q₀, ← List.append_assoc q₀, hv]
        simp
      · exact ((List.take_sublist _ _).append (List.take_sublist _ _)).append (List.take_sublist _ _)
      · intro _ hroom
        rw [List.take_of_length_le (by simp; omega), List.take_of_length_le (l := a3) (by omega),
          List.take_of_length_le (l := a4) (by simp; omega)]

/-- C136 is false otherwise: if the handler fills the buffer after `m_tail` was written and before `m_is_full` is cleared, which
takes two pushes into a buffer with one free slot, the buffer is empty afterwards although `n` elements were accepted and never popped. -/
theorem C136_pop_counterexample (hn : 0 < n) (h : Reachable n r) {v : α} (hq : r.Holds (v :: q)) (hroom : q.length + 1 < n) (vs : List α)
    (hfill : n - q.length ≤ vs.length) :
    ∃ r', r.popInterrupted [] [] [] vs [] = .ok ((some v, vs.take (n - q.length)), r') ∧ r'.Holds [] ∧
      (q ++ vs.take (n - q.length)).length = n := by
  obtain ⟨q₀, hq₀⟩ := h.rep hn
  obtain rfl := hq₀.holds.unique hq
  rcases pop_start hq₀ [] [] [] with ⟨hc, -⟩ | ⟨-, r₁, v', q', h₁, hv, hx⟩
  · rcases hc with ⟨hc, -⟩ | ⟨hc, hc'⟩
    · cases hc
    · simp at hc'; omega
  · simp at hv
    obtain ⟨rfl, rfl⟩ := hv
    have h₂ := advance h₁ hroom
    obtain ⟨r₃, e₃, h₃, -⟩ := isrPush_rep vs h₂
    have hlen : (q ++ vs.take (n - q.length)).length = n := by simp; omega
    refine ⟨{ r₃ with isFull := false, overwritten := 0 }, ?_, (over (clear_full h₃ hlen)).holds, hlen⟩
    rw [hx]
    simp [e₃, isrPush]

/-- C136 is false otherwise: `empty()` reads `m_is_full` first and compares `m_head` and `m_tail` after it. If the handler fills the buffer in between,
`pop` returns false although the buffer is full. -/
theorem C136_pop_full_counterexample (hn : 0 < n) (h : Reachable n r) (hq : r.Holds q) (hroom : q.length < n) (vs a1 a2 a3 a4 : List α)
    (hfill : vs.length = n - q.length) :
    ∃ r', r.popInterrupted vs a1 a2 a3 a4 = .ok ((none, vs), r') ∧ r'.Holds (q ++ vs) ∧ (q ++ vs).length = n := by
  obtain ⟨q₀, hq₀⟩ := h.rep hn
  obtain rfl := hq₀.holds.unique hq
  have ht : vs.take (n - q₀.length) = vs := List.take_of_length_le (by omega)
  rcases pop_start hq₀ vs a1 a2 with ⟨-, hx⟩ | ⟨hc, -⟩
  · obtain ⟨r', e, h'⟩ := hx a3 a4
    rw [ht] at e h'
    exact ⟨r', e, h'.holds, by simp; omega⟩
  · exact absurd (.inr ⟨hroom, by omega⟩) hc

namespace Interrupted

theorem isrPop_rep : ∀ (k : Nat) {r : Ring α} {q : List α}, Rep n r q →
    ∃ r', r.isrPop k = .ok (q.take k, r') ∧ Rep n r' (q.drop k) ∧ r'.buf = r.buf ∧ r'.head = r.head
  | 0, r, q, h => ⟨r, by simp [isrPop], by simpa using h, rfl, rfl⟩
  | k + 1, r, [], h => by
    obtain ⟨r', e, h', hb⟩ := isrPop_rep k h
    refine ⟨r', ?_, by simpa using h', hb⟩
    rw [isrPop]
    simp [h.pop_none, e]
  | k + 1, r, v :: q, h => by
    have hrd := read h
    have hne : r.empty = false := by rw [h.emptyEq]; simp
    have hp : r.pop = .ok (some v, { r with tail := wrap n (r.tail + 1), isFull := false, overwritten := 0 }) := by
      unfold pop
      simp [hne, hrd, next_tail h]
    obtain ⟨r', e, h', hb, hh⟩ := isrPop_rep k (over (k := 0) (advance_clear h))
    refine ⟨r', ?_, by simpa using h', hb, hh⟩
    rw [isrPop]
    simp [hp, e]

/-- While `m_head` and `m_tail` agree and `m_is_full` is not set, the handler's pops find nothing. -/
theorem isrPop_empty : ∀ (k : Nat) {r : Ring α}, r.isFull = false → r.head = r.tail → r.isrPop k = .ok ([], r)
  | 0, _, _, _ => rfl
  | k + 1, r, hf, ht => by
    have : r.pop = .ok (none, r) := by unfold pop empty full; simp [hf, ht]
    simp [isrPop, this, isrPop_empty k hf ht]

/-- The state of an interrupted `push` after `m_head` was written. -/
theorem push_start (h : Rep n r q) (v : α) (k0 k1 : Nat) (hq : q.length < n) :
    ∃ r₁, r₁.buf.length = n ∧ r₁.isFull = false ∧ Rep n { r₁ with isFull := decide ((q.drop (k0 + k1)).length + 1 = n) } (q.drop (k0 + k1) ++ [v]) ∧
      ∀ k2 k3, r.pushInterrupted v k0 k1 k2 k3 = (do
        let (p2, r) ← isrPop r₁ k2
        if r.head = r.tail then
          let (p3, r) ← r.isrPop k3
          return ((true, q.take k0 ++ (q.drop k0).take k1 ++ p2 ++ p3), { r with isFull := true })
        else
          let (p3, r) ← r.isrPop k3
          if r.isFull then
            let tail ← umod (r.tail + 1) r.buf.length
            return ((true, q.take k0 ++ (q.drop k0).take k1 ++ p2 ++ p3), { r with tail, overwritten := uadd r.overwritten 1 })
          else return ((true, q.take k0 ++ (q.drop k0).take k1 ++ p2 ++ p3), r)) := by
  obtain ⟨r₀, e₀, h₀, b₀, hd₀⟩ := isrPop_rep k0 h
  have hf : r.isFull = false := by rw [h.fullIff]; simp; omega
  have hl0 : (q.drop k0).length < n := by simp; omega
  have hh0 := h₀.headLt
  have hw : wr r₀.buf r₀.head v = .ok (r₀.buf.set r₀.head v) := wr_ok (by rw [h₀.len]; omega)
  have hwr : Rep n { r₀ with buf := r₀.buf.set r₀.head v } (q.drop k0) := by
    obtain ⟨h1, h2, h3, h4, h5, h6, h7⟩ := h₀
    refine ⟨by simpa using h1, h2, h3, h4, h5, h6, fun i hi => ?_⟩
    show (r₀.buf.set r₀.head v)[wrap n (r₀.tail + i)]? = _
    rw [List.getElem?_set_ne, h7 i hi]
    rw [h5]
    unfold wrap
    repeat' split
    all_goals omega
  obtain ⟨r₁, e₁, h₁, b₁, hd₁⟩ := isrPop_rep k1 hwr
  simp only at b₁ hd₁
  rw [List.drop_drop] at h₁
  have hl1 : (q.drop (k0 + k1)).length < n := by simp; omega
  have hf1 : r₁.isFull = false := by rw [h₁.fullIff]; simp; omega
  have hh1 := h₁.headLt
  have hm : umod (r₁.head + 1) r₁.buf.length = .ok (wrap n (r₁.head + 1)) := by
    rw [h₁.len]; exact umod_eq h₁.pos (by omega)
  have hv : r₁.buf[r₁.head]? = some v := by
    rw [b₁, hd₁, List.getElem?_set_self (by rw [h₀.len]; omega)]
  refine ⟨{ r₁ with head := wrap n (r₁.head + 1) }, h₁.len, hf1, ?_, fun k2 k3 => ?_⟩
  · obtain ⟨h1, h2, h3, h4, h5, h6, h7⟩ := h₁
    refine ⟨h1, h2, h3, by simp at hl1 ⊢; omega, ?_, by simp, fun i hi => ?_⟩
    · show wrap n (r₁.head + 1) = wrap n (r₁.tail + _)
      rw [h5, List.length_append, List.length_singleton]
      unfold wrap
      repeat' split
      all_goals omega
    · show r₁.buf[wrap n (r₁.tail + i)]? = _
      by_cases hi' : i < (q.drop (k0 + k1)).length
      · rw [h7 i hi', List.getElem_append_left hi']
      · have : i = (q.drop (k0 + k1)).length := by simp at hi hi' ⊢; omega
        subst this
        rw [← h5, hv]; simp
  · unfold pushInterrupted
    simp only [hf, Bool.false_eq_true, if_false, e₀, res_bind_ok, hw, e₁, hm]

end Interrupted

/-- **C136** for a handler that pops while the main program pushes, the part that holds: unless the handler pops everything,
including the new element, after `m_head` was written and before it is compared with `m_tail`, no element is lost, repeated or moved. `push` returns false
exactly if the buffer was full at its start. -/
theorem C136_push_partial (hn : 0 < n) (h : Reachable n r) (hq : r.Holds q) (v : α) (k0 k1 k2 k3 : Nat)
    (hsafe : k2 < q.length - (k0 + k1) + 1 ∨ q.length - (k0 + k1) + 1 = n) :
    ∃ done popped q' r', r.pushInterrupted v k0 k1 k2 k3 = .ok ((done, popped), r') ∧ r'.Holds q' ∧
      popped ++ q' = (if done then q ++ [v] else q) ∧ (done = true ↔ q.length < n) ∧
      (done = true → q.length + 1 < n → popped.length = min q.length (k0 + k1) + min (k2 + k3) (q.length - (k0 + k1) + 1)) := by
  obtain ⟨q₀, hq₀⟩ := h.rep hn
  obtain rfl := hq₀.holds.unique hq
  have hl := hq₀.qle
  by_cases hfull : q₀.length = n
  · have hf : r.isFull = true := by rw [hq₀.fullIff]; simp [hfull]
    exact ⟨false, [], q₀, r, by unfold pushInterrupted; simp [hf], hq, by simp, by simp [hfull], by simp⟩
  · have hlt : q₀.length < n := by omega
    obtain ⟨r₁, l₁, f₁, h₁, hx⟩ := push_start hq₀ v k0 k1 hlt
    have hsplit : q₀.take k0 ++ (q₀.drop k0).take k1 = q₀.take (k0 + k1) := by rw [List.take_add]
    by_cases hn1 : (q₀.drop (k0 + k1)).length + 1 = n
    · have hht : r₁.head = r₁.tail := by
        have := (head_eq_tail h₁).mpr (.inr (by simpa using hn1))
        exact this
      refine ⟨true, q₀.take (k0 + k1), q₀.drop (k0 + k1) ++ [v], { r₁ with isFull := true }, ?_, ?_, ?_, by simp [hlt], ?_⟩
      · rw [hx, isrPop_empty k2 f₁ hht]
        simp only [res_bind_ok, hht, if_true, isrPop_empty k3 f₁ hht, res_pure, hsplit, List.append_nil]
      · simp only [hn1, decide_true] at h₁
        exact h₁.holds
      · rw [← List.append_assoc, List.take_append_drop]; simp
      · simp at hn1
        omega
    · have hl1 : (q₀.drop (k0 + k1)).length + 1 < n := by simp at hn1 ⊢; omega
      simp only [hn1, decide_false] at h₁
      have h₁' : Rep n r₁ (q₀.drop (k0 + k1) ++ [v]) := by
        rw [← f₁] at h₁; exact h₁
      obtain ⟨r₂, e₂, h₂, -⟩ := isrPop_rep k2 h₁'
      obtain ⟨r₃, e₃, h₃, -⟩ := isrPop_rep k3 h₂
      have hne : ¬r₂.head = r₂.tail := by
        rw [head_eq_tail h₂]
        simp at hl1 hn1 ⊢; omega
      have hf3 : r₃.isFull = false := by
        rw [h₃.fullIff]; simp at hl1 ⊢; omega
      refine ⟨true, q₀.take (k0 + k1) ++ (q₀.drop (k0 + k1) ++ [v]).take (k2 + k3), _, r₃, ?_, h₃.holds, ?_, by simp [hlt], ?_⟩
      · rw [hx]
        simp only [e₂, res_bind_ok, hne, if_false, e₃, hf3, Bool.false_eq_true, res_pure, hsplit]
        rw [List.take_add (l := q₀.drop (k0 + k1) ++ [v]), List.append_assoc]
      · rw [List.drop_drop, List.append_assoc, List.take_append_drop, ← List.append_assoc, List.take_append_drop]
        simp
      · intro _ _
        simp; omega

/-- C136 is false otherwise: if the handler pops everything, including the new element, after `m_head` was written and before it is compared with `m_tail`,
`push` finds them equal and marks the empty buffer as full. It then holds `n` elements that nobody pushed since. -/
theorem C136_push_counterexample (hn : 0 < n) (h : Reachable n r) (hq : r.Holds q) (v : α) (hroom : q.length + 1 < n) :
    ∃ q' r', r.pushInterrupted v 0 0 (q.length + 1) 0 = .ok ((true, q ++ [v]), r') ∧ r'.Holds q' ∧ q'.length = n := by
  obtain ⟨q₀, hq₀⟩ := h.rep hn
  obtain rfl := hq₀.holds.unique hq
  obtain ⟨r₁, l₁, f₁, h₁, hx⟩ := push_start hq₀ v 0 0 (by omega)
  have hn1 : ¬(q₀.drop (0 + 0)).length + 1 = n := by simp; omega
  simp only [hn1, decide_false] at h₁
  have h₁' : Rep n r₁ (q₀.drop (0 + 0) ++ [v]) := by
    rw [← f₁] at h₁; exact h₁
  simp only [Nat.add_zero, List.drop_zero] at h₁'
  obtain ⟨r₂, e₂, h₂, b₂, -⟩ := isrPop_rep (q₀.length + 1) h₁'
  have ht : (q₀ ++ [v]).take (q₀.length + 1) = q₀ ++ [v] := List.take_of_length_le (by simp)
  have hd : (q₀ ++ [v]).drop (q₀.length + 1) = [] := List.drop_of_length_le (by simp)
  rw [ht] at e₂
  rw [hd] at h₂
  have hht := (head_eq_tail h₂).mpr (.inl rfl)
  have htl := h₂.tailLt
  have hbl := h₂.len
  have hrep : Rep n { r₂ with isFull := true } (r₂.buf.drop r₂.tail ++ r₂.buf.take r₂.tail) := by
    have hlen : (r₂.buf.drop r₂.tail ++ r₂.buf.take r₂.tail).length = n := by simp; omega
    refine ⟨hbl, hn, htl, by omega, ?_, by simp [hlen], fun i hi => ?_⟩
    · show r₂.head = wrap n (r₂.tail + _)
      rw [hht, hlen]; unfold wrap; split <;> omega
    · rw [hlen] at hi
      show r₂.buf[wrap n (r₂.tail + i)]? = _
      by_cases hi' : r₂.tail + i < n
      · have hw : wrap n (r₂.tail + i) = r₂.tail + i := by unfold wrap; split <;> omega
        rw [hw, ← List.getElem?_eq_getElem, List.getElem?_append_left (by simp; omega), List.getElem?_drop]
      · have hw : wrap n (r₂.tail + i) = r₂.tail + i - n := by unfold wrap; split <;> omega
        rw [hw, ← List.getElem?_eq_getElem, List.getElem?_append_right (by simp; omega), List.getElem?_take_of_lt (by simp; omega)]
        congr 1
        simp; omega
  refine ⟨_, { r₂ with isFull := true }, ?_, hrep.holds, by simp; omega⟩
  rw [hx, e₂]
  simp only [res_bind_ok, hht, if_true]
  simp [isrPop, hht]

/-- C136 is false otherwise: while the main program pushes the last element that fits, the buffer looks empty to the handler after `m_head` was written and
before `m_is_full` is, however many elements it holds. -/
theorem C136_handler_counterexample (hn : 0 < n) (h : Reachable n r) (hq : r.Holds q) (v : α) (hlast : q.length + 1 = n) (k2 k3 : Nat) :
    ∃ r', r.pushInterrupted v 0 0 k2 k3 = .ok ((true, []), r') ∧ r'.Holds (q ++ [v]) := by
  obtain ⟨q₀, hq₀⟩ := h.rep hn
  obtain rfl := hq₀.holds.unique hq
  obtain ⟨r₁, l₁, f₁, h₁, hx⟩ := push_start hq₀ v 0 0 (by omega)
  simp only [Nat.add_zero, List.drop_zero, hlast, decide_true] at h₁
  have hht : r₁.head = r₁.tail := (head_eq_tail h₁).mpr (.inr (by simpa using hlast))
  refine ⟨{ r₁ with isFull := true }, ?_, h₁.holds⟩
  rw [hx, isrPop_empty k2 f₁ hht]
  simp only [res_bind_ok, hht, if_true, isrPop_empty k3 f₁ hht, res_pure]
  simp

/-! ### Examples -/

/-- Capacity 3, holding 5 and 6: `pop` interrupted by one push at any place. -/
def shared : Ring Nat := { buf := [5, 6, 0], head := 2, tail := 0, overwritten := 0, isFull := false }

theorem shared_reachable : Reachable 3 shared :=
  ⟨.release, 0, _, [.push 5 false, .push 6 false], _, rfl, rfl⟩

example : ∃ q, shared.Holds q ∧ q.length = 2 ∧ q.length + 0 + 0 + 0 + [7].length ≤ 3 := by
  obtain ⟨q, h⟩ := C02_ring_readable 3 (by decide) shared shared_reachable
  have hl : q.length = 2 := h.1.symm
  exact ⟨q, h, hl, by simp; omega⟩

example : shared.popInterrupted [] [] [] [7] [] =
    .ok ((some 5, [7]), { buf := [5, 6, 7], head := 0, tail := 1, overwritten := 0, isFull := false }) := rfl

/-- Two pushes after `m_tail` was written: 6, 7 and 8 are gone. -/
example : ((shared.popInterrupted [] [] [] [7, 8] []).map fun (_, r) => (r.usedSpace, r.empty)) = .ok (0, true) := rfl

/-- One push between the two reads of `empty()`: nothing is popped from a full buffer. -/
example : ((shared.popInterrupted [7] [] [] [] []).map fun ((v, _), r) => (v, r.usedSpace)) = .ok (none, 3) := rfl

/-- An empty buffer of capacity 2; the handler pops the 9 that is being pushed. The next pop gives a stale value and the one after it 9 again. -/
example : (do
    let (_, r) ← pushInterrupted { buf := [3, 4], head := 1, tail := 1, overwritten := 0, isFull := false } 9 0 0 1 0
    let (v, r) ← r.pop
    let (w, _) ← r.pop
    return (v, w)) = .ok (some 3, some 9) := rfl

end Spine.Ring
