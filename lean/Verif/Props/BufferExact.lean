import Verif.Props.LineBuffer
import Verif.Proofs.EventSystem
/-!
# Properties C05 and C10: where exactly the buffers fail
-/

namespace Spine

open Ring

variable {α : Type}

/-! ## C05 -/

private theorem one_many : ∀ (vs : List α) {r : Ring α} {q : List α} (ro : Bool), Rep 1 r q → r.overwritten = 0 →
    ∃ k r' q', r.pushMany vs ro = .ok (k, r') ∧ Rep 1 r' q' ∧ r'.overwritten = 0
  | [], r, q, ro, h, ho => ⟨0, r, q, rfl, h, ho⟩
  | v :: vs, r, q, ro, h, ho => by
    have hle := h.qle
    by_cases hq : q.length < 1
    · obtain ⟨r₁, e₁, h₁, o₁⟩ := h.push_space v ro hq
      obtain ⟨k, r₂, q₂, e₂, h₂, o₂⟩ := one_many vs ro h₁ (by rw [o₁, ho])
      exact ⟨k + 1, r₂, q₂, by simp [pushMany, e₁, e₂, bind, Except.bind, pure, Except.pure], h₂, o₂⟩
    · have hq' : q.length = 1 := by omega
      cases ro with
      | false => exact ⟨0, r, q, by simp [pushMany, h.push_reject v hq', bind, Except.bind, pure, Except.pure], h, ho⟩
      | true =>
        obtain ⟨r₁, e₁, h₁, o₁⟩ := h.push_rollover v hq'
        obtain ⟨k, r₂, q₂, e₂, h₂, o₂⟩ := one_many vs true h₁ (by rw [o₁, if_pos rfl, ho])
        exact ⟨k + 1, r₂, q₂, by simp [pushMany, e₁, e₂, bind, Except.bind, pure, Except.pure], h₂, o₂⟩

private theorem one_step {r : Ring α} {q : List α} (h : Rep 1 r q) (ho : r.overwritten = 0) (op : Op α) (hc : Queue.CallerOk op)
    (hd : Queue.NotDropOrClear op) : ∃ o r' q', r.step op = .ok (o, r') ∧ Rep 1 r' q' ∧ r'.overwritten = 0 := by
  cases op with
  | push v ro =>
    obtain ⟨k, r', q', e, h', o'⟩ := one_many [v] ro h ho
    simp only [pushMany] at e
    cases hp : r.push v ro with
    | error f => simp [hp, bind, Except.bind] at e
    | ok y =>
      obtain ⟨d, r₁⟩ := y
      cases d <;> simp [hp, bind, Except.bind, pure, Except.pure] at e <;> obtain ⟨-, rfl⟩ := e <;>
        exact ⟨_, _, _, by simp only [Ring.step, hp, bind, Except.bind, pure, Except.pure]; rfl, h', o'⟩
  | pushMany vs ro =>
    obtain ⟨k, r', q', e, h', o'⟩ := one_many vs ro h ho
    exact ⟨_, _, _, by simp only [Ring.step, e, bind, Except.bind, pure, Except.pure]; rfl, h', o'⟩
  | pop =>
    cases q with
    | nil => exact ⟨_, _, _, by simp only [Ring.step, h.pop_none, bind, Except.bind, pure, Except.pure]; rfl, h, ho⟩
    | cons v q =>
      obtain ⟨r₁, e₁, h₁, o₁⟩ := h.pop_some
      exact ⟨_, _, _, by simp only [Ring.step, e₁, bind, Except.bind, pure, Except.pure]; rfl, h₁, o₁⟩
  | popMany dst k =>
    by_cases hk : k ≤ q.length
    · obtain ⟨r₁, e₁, h₁, o₁, o₂⟩ := Rep.popLoop k dst 0 h hk (by simpa [Queue.CallerOk] using hc)
      refine ⟨_, _, _, by simp only [Ring.step, Ring.popMany, h.used, show ¬ q.length < k by omega, if_false, e₁, bind, Except.bind,
        pure, Except.pure]; rfl, h₁, ?_⟩
      by_cases hk0 : k = 0
      · rw [o₂ hk0]; exact ho
      · exact o₁ (by omega)
    · exact ⟨_, _, _, by simp only [Ring.step, h.popMany_short dst k (by omega), bind, Except.bind, pure, Except.pure]; rfl, h, ho⟩
  | peekAt i => exact ⟨_, _, _, by simp only [Ring.step, h.peek, bind, Except.bind, pure, Except.pure]; rfl, h, ho⟩
  | dropLast k => exact absurd hd id
  | dropFirst k => exact absurd hd id
  | clear => exact absurd hd id
  | _ => exact ⟨_, _, _, by simp only [Ring.step, pure, Except.pure]; rfl, h, ho⟩

private theorem one_run : ∀ (ops : List (Op α)) {r : Ring α} {q : List α}, Rep 1 r q → r.overwritten = 0 → (∀ op ∈ ops, Queue.CallerOk op) →
    (∀ op ∈ ops, Queue.NotDropOrClear op) → ∃ outs r', r.run ops = .ok (outs, r') ∧ r'.overwritten = 0
  | [], r, _, _, ho, _, _ => ⟨[], r, rfl, ho⟩
  | op :: ops, r, q, h, ho, hc, hd => by
    obtain ⟨o, r₁, q₁, e₁, h₁, o₁⟩ := one_step h ho op (hc op (by simp)) (hd op (by simp))
    obtain ⟨os, r₂, e₂, o₂⟩ := one_run ops h₁ o₁ (fun o ho => hc o (by simp [ho])) (fun o ho => hd o (by simp [ho]))
    exact ⟨_, r₂, by simp only [Ring.run, e₁, e₂, bind, Except.bind, pure, Except.pure]; rfl, o₂⟩

/-- C05 is false for capacity 1 in every history: `overrun_space()` is always 0, however many elements have been overwritten. -/
theorem C05_capacity_one_counterexample (b : Build) (init : α) (ops : List (Op α)) (hc : ∀ op ∈ ops, Queue.CallerOk op)
    (hd : ∀ op ∈ ops, Queue.NotDropOrClear op) : ∃ r₀ outs r, create b 1 init = .ok r₀ ∧ r₀.run ops = .ok (outs, r) ∧ r.overrunSpace = 0 := by
  obtain ⟨r₀, e₀, h₀, o₀⟩ := Rep.create (show 0 < 1 by omega) b init
  obtain ⟨outs, r, e, o⟩ := one_run ops h₀ o₀ hc hd
  exact ⟨r₀, outs, r, e₀, e, o⟩

/-- C05 is false after drops: the number of elements dropped is subtracted modulo the number of values of `size_t`, so that the number wraps as soon as more elements are dropped than have been
overwritten. -/
theorem C05_drop_last_counterexample (n : Nat) (hn : 0 < n) (r : Ring α) (h : Reachable n r) (q : List α) (hq : r.Holds q) (k : Nat)
    (hk : 0 < k ∨ q.length < n) (hlt : r.overrunSpace < min k q.length) :
    ∃ r', r.dropLast k = .ok (min k q.length, r') ∧ r'.overrunSpace = r.overrunSpace + sizeMod - min k q.length := by
  obtain ⟨q', hq'⟩ := h.rep hn
  obtain rfl := hq'.holds.unique hq
  obtain ⟨r', e, -, o⟩ := hq'.dropLast k hk
  refine ⟨r', e, ?_⟩
  unfold overrunSpace at *
  rw [o, usub, if_neg (by omega), sizeMod]

/-- C05, the rest of the drops: otherwise the elements dropped are counted as if they had been the overwritten ones. -/
theorem C05_drop_last_exact (n : Nat) (hn : 0 < n) (r : Ring α) (h : Reachable n r) (q : List α) (hq : r.Holds q) (k : Nat)
    (hk : 0 < k ∨ q.length < n) (hle : min k q.length ≤ r.overrunSpace) :
    ∃ r', r.dropLast k = .ok (min k q.length, r') ∧ r'.overrunSpace = r.overrunSpace - min k q.length := by
  obtain ⟨q', hq'⟩ := h.rep hn
  obtain rfl := hq'.holds.unique hq
  obtain ⟨r', e, -, o⟩ := hq'.dropLast k hk
  refine ⟨r', e, ?_⟩
  unfold overrunSpace at *
  rw [o, usub, if_pos hle]

/-- Non-vacuity: after two pushes into a buffer of three, dropping one leaves the largest number of elements overrun. -/
example : ∃ r r' : Ring Nat, Reachable 3 r ∧ r.Holds [1, 2] ∧ r.dropLast 1 = .ok (1, r') ∧ r'.overrunSpace = sizeMod - 1 := by
  have hr : Reachable 3 (⟨[1, 2, 0], 2, 0, 0, false⟩ : Ring Nat) := ⟨.release, 0, _, [.push 1 false, .push 2 false], _, rfl, rfl⟩
  have hh : Holds (⟨[1, 2, 0], 2, 0, 0, false⟩ : Ring Nat) [1, 2] := by
    obtain ⟨q, hq⟩ := hr.rep (by omega)
    have h1 := hq.used
    have h2 := hq.slots
    have hl : q.length = 2 := by rw [← h1]; rfl
    match q, hl with
    | [a, b], _ =>
      have e0 := h2 0 (by simp)
      have e1 := h2 1 (by simp)
      simp [wrap] at e0 e1
      rw [← e0, ← e1] at hq
      exact hq.holds
  obtain ⟨r', e, o⟩ := C05_drop_last_counterexample 3 (by omega) _ hr _ hh 1 (by simp) (by simp [overrunSpace])
  exact ⟨_, r', hr, hh, e, by simpa [overrunSpace] using o⟩

/-! ## C10 -/

private theorem view_start {n : Nat} {l : LineBuf} {q line rest : List Byte} (hq : Rep n l.ring q) (hf : Lines.First l.delims q line rest) :
    l.getNextLineView none = .ok (some ⟨l.ring.tail, line.length⟩) := by
  have hpos : 0 < q.length := by
    obtain ⟨d, -, he, -⟩ := hf
    rw [he]; simp
  have hw : wrap n l.ring.tail = l.ring.tail := by
    have := hq.tailLt
    unfold wrap
    simp [this]
  unfold LineBuf.getNextLineView
  simp [LineBuf.discovered_first hq hf (.inl rfl), hq.peekPtr hpos, hw]

/-- C10 holds for capacities up to 2: their lines cannot wrap. -/
theorem C10_small_partial (n : Nat) (hn : 0 < n) (h2 : n ≤ 2) (l : LineBuf) (h : LineBuf.Reachable n l) (q : List Byte)
    (hq : l.Holds q) (line rest : List Byte) (hf : Lines.First l.delims q line rest) :
    ∃ v, l.getNextLineView none = .ok (some v) ∧ l.readView v = .ok line := by
  obtain ⟨v, e, hs, hok, -⟩ := C10_line_view_partial n hn l h q hq line rest hf
  obtain ⟨q', hq'⟩ := h.rep hn
  obtain rfl := hq'.holds.unique hq
  rw [view_start hq' hf] at e
  cases e
  refine ⟨_, view_start hq' hf, hok ?_⟩
  have := hq'.tailLt
  have := hq'.qle
  obtain ⟨d, -, he, -⟩ := hf
  have hl : q'.length = line.length + (rest.length + 1) := by rw [he]; simp
  simp only
  omega

private theorem push_tail {r r' : Ring α} {v : α} {d : Bool} (e : r.push v false = .ok (d, r')) : r'.tail = r.tail := by
  unfold push at e
  cases hf : r.isFull
  · simp only [hf, Bool.false_and, Bool.false_eq_true, if_false] at e
    obtain ⟨buf, -, e⟩ := bind_ok.mp e
    obtain ⟨head, -, e⟩ := bind_ok.mp e
    split at e <;> cases e <;> rfl
  · simp [hf, pure, Except.pure] at e
    rw [← e.2]

private theorem pushMany_tail : ∀ (vs : List α) {r r' : Ring α} {k : Nat}, r.pushMany vs false = .ok (k, r') → r'.tail = r.tail
  | [], r, r', k, e => by cases e; rfl
  | v :: vs, r, r', k, e => by
    unfold pushMany at e
    obtain ⟨⟨d, r₁⟩, e₁, e⟩ := bind_ok.mp e
    have h₁ := push_tail e₁
    cases d
    · simp [pure, Except.pure] at e
      rw [← e.2, h₁]
    · simp only [Bool.not_true, Bool.false_eq_true, if_false] at e
      obtain ⟨⟨k₂, r₂⟩, e₂, e⟩ := bind_ok.mp e
      cases e
      rw [pushMany_tail vs e₂, h₁]

/-- C10 is false for every capacity of 3 or more: there is a history after which the next line is `ab`, and reading the view leaves the storage. -/
theorem C10_capacity_counterexample (n : Nat) (hn : 3 ≤ n) :
    ∃ l, LineBuf.Reachable n l ∧ l.Holds [97, 98, 10] ∧ Lines.First l.delims [97, 98, 10] [97, 98] [] ∧
      ∃ v, l.getNextLineView none = .ok (some v) ∧ l.readView v = .error .ub := by
  obtain ⟨r₀, e₀, h₀, -⟩ := Rep.create (show 0 < n by omega) .debug (0 : Byte)
  obtain ⟨r₁, e₁, h₁, -⟩ := Rep.pushMany_false (List.replicate (n - 1) 0) h₀
  obtain ⟨r₂, e₂, h₂⟩ := h₁.dropFirst (n - 1) (by left; omega)
  obtain ⟨r₃, e₃, h₃, -⟩ := Rep.pushMany_false [97, 98, 10] h₂
  have t₀ : r₀.tail = 0 := by
    unfold Ring.create at e₀
    obtain ⟨-, -, e₀⟩ := bind_ok.mp e₀
    cases e₀; rfl
  have t₁ : r₁.tail = 0 := by rw [pushMany_tail _ e₁, t₀]
  have l₁ : (([] : List Byte) ++ (List.replicate (n - 1) 0).take (n - ([] : List Byte).length)).length = n - 1 := by simp
  have t₂ : r₂.tail = n - 1 := by
    have hu := h₁.used
    rw [l₁] at hu
    unfold Ring.dropFirst at e₂
    rw [hu, Nat.min_self] at e₂
    obtain ⟨r₄, e₄, e₂⟩ := bind_ok.mp e₂
    unfold Ring.advanceTail at e₄
    rw [h₁.len, t₁, umod_eq (by omega) (by omega)] at e₄
    have hw : wrap n (0 + (n - 1)) = n - 1 := by unfold wrap; rw [if_pos (by omega)]; omega
    rw [hw] at e₄
    simp only [pure, Except.pure, bind, Except.bind] at e₄
    cases e₄
    simp only [pure, Except.pure, Except.ok.injEq, Prod.mk.injEq] at e₂
    rw [← e₂.2]
  have t₃ : r₃.tail = n - 1 := by rw [pushMany_tail _ e₃, t₂]
  have q₂ : (([] : List Byte) ++ (List.replicate (n - 1) 0).take (n - ([] : List Byte).length)).drop (n - 1) = [] := by
    rw [List.drop_eq_nil_iff]; exact Nat.le_of_eq l₁
  rw [q₂] at h₃
  have q₃ : ([] : List Byte) ++ [97, 98, 10].take (n - ([] : List Byte).length) = [97, 98, 10] := by
    rw [List.nil_append]; exact List.take_of_length_le (by simp; omega)
  rw [q₃] at h₃
  have hf : Lines.First [10] ([97, 98, 10] : List Byte) [97, 98] [] := ⟨10, by simp, rfl, by decide⟩
  refine ⟨⟨r₃, [10]⟩, ?_, h₃.holds, hf, ⟨n - 1, 2⟩, ?_, ?_⟩
  · refine ⟨.debug, [10], ⟨r₀, [10]⟩, [.ring (.pushMany (List.replicate (n - 1) 0) false), .ring (.dropFirst (n - 1)),
      .ring (.pushMany [97, 98, 10] false)], ?_, ?_⟩
    · simp only [LineBuf.create, e₀, bind, Except.bind, pure, Except.pure]
    · simp only [LineBuf.run, LineBuf.step, Ring.step, e₁, e₂, e₃, bind, Except.bind, pure, Except.pure]
  · rw [view_start (l := ⟨r₃, [10]⟩) h₃ hf]
    simp only [t₃]; rfl
  · unfold LineBuf.readView
    rw [if_neg]
    simp only [h₃.len]; omega

end Spine
