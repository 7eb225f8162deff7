import Verif.Props.BufferExact
import Verif.Props.RingBuffer
/-!
# Property C05 for all histories, those with drops and clears included
-/

namespace Spine

open Ring

variable {α : Type}

namespace Queue

/-- What `overrun_space()` reports after one more call, of a buffer of at least two elements that held `q` and reported `l`: pushes and pops count as in `lostStep`, modulo the
number of values of `size_t`; elements dropped at the end are subtracted, modulo the same number; and dropping `d` elements at the front, less than half of them, leaves at most
the number of remaining elements less `d`. -/
def reportedStep (n : Nat) (q : List α) (l : Nat) : Ring.Op α → Nat
  | .dropLast k => if min k q.length ≤ l then l - min k q.length else l + sizeMod - min k q.length
  | .clear => if q.length ≤ l then l - q.length else l + sizeMod - q.length
  | .dropFirst k =>
    if 2 * min k q.length ≤ q.length then min l (q.length - 2 * min k q.length) else min l (q.length + sizeMod - 2 * min k q.length)
  | op => lostStep n q l op % sizeMod

/-- What `overrun_space()` reports after a history. -/
def reported (n : Nat) (q : List α) (l : Nat) : List (Ring.Op α) → Nat
  | [] => l
  | op :: ops => reported n (step n q op).2 (reportedStep n q l op) ops

end Queue

private theorem first_overwritten {n : Nat} {r : Ring α} {q : List α} (h : Rep n r q) (k : Nat) (hk : 0 < k) {m : Nat} {r' : Ring α}
    (e : r.dropFirst k = .ok (m, r')) : r'.overwritten = min r.overwritten (usub (q.length - min k q.length) (min k q.length)) := by
  obtain ⟨r₁, e₁, h₁⟩ := h.dropFirst k (.inl hk)
  rw [e] at e₁
  obtain ⟨rfl, rfl⟩ : m = min k q.length ∧ r' = r₁ := by
    have := Except.ok.inj e₁
    exact Prod.mk.inj this
  have hu := h₁.used
  unfold Ring.dropFirst at e
  obtain ⟨r₂, e₂, e⟩ := bind_ok.mp e
  have e := Prod.mk.inj (Except.ok.inj e)
  rw [← e.2]
  have hs : usedSpace { r₂ with isFull := false } = q.length - min k q.length := by
    have : usedSpace r' = usedSpace { r₂ with isFull := false } := by rw [← e.2]; rfl
    rw [← this, hu, List.length_drop]
    omega
  have ho : r₂.overwritten = r.overwritten := by
    unfold Ring.advanceTail at e₂
    obtain ⟨t, -, e₂⟩ := bind_ok.mp e₂
    rw [← Except.ok.inj e₂]
  show min r₂.overwritten (usub (usedSpace { r₂ with isFull := false }) _) = _
  rw [hs, ho, h.used, Nat.min_comm q.length k]

private theorem reported_step {n : Nat} (hn : 2 ≤ n) {r : Ring α} {q : List α} (h : Rep n r q) (hb : r.overwritten < sizeMod) (op : Op α) (hc : Queue.CallerOk op)
    (hd : Queue.NotDropZero op) {o r'} (e : r.step op = .ok (o, r')) (hsz : n < sizeMod) :
    r'.overwritten = Queue.reportedStep n q r.overwritten op ∧ r'.overwritten < sizeMod := by
  have hqle := h.qle
  have plain : Queue.NotDropOrClear op → Queue.reportedStep n q r.overwritten op = Queue.lostStep n q r.overwritten op % sizeMod →
      r'.overwritten = Queue.reportedStep n q r.overwritten op ∧ r'.overwritten < sizeMod := by
    intro hn' hp
    have := overrun_step hn h (Nat.mod_eq_of_lt hb).symm op hc hn' e
    rw [hp, this]
    exact ⟨rfl, Nat.mod_lt _ (by omega)⟩
  cases op with
  | dropLast k =>
    obtain ⟨r₁, e₁, -, o₁⟩ := h.dropLast k (.inl hd)
    simp only [Ring.step, e₁, bind, Except.bind, pure, Except.pure] at e
    cases e
    simp only [Queue.reportedStep]
    rw [o₁, usub]
    refine ⟨rfl, ?_⟩
    split <;> omega
  | dropFirst k =>
    simp only [Ring.step] at e
    obtain ⟨⟨m, r₁⟩, e₁, e⟩ := bind_ok.mp e
    cases e
    have := first_overwritten h k hd e₁
    simp only [Queue.reportedStep]
    rw [this, usub]
    constructor
    · split <;> split <;> omega
    · omega
  | clear =>
    obtain ⟨r₁, e₁, -, o₁⟩ := h.dropLast q.length (by omega)
    simp only [Ring.step, Ring.clear, h.used, e₁, bind, Except.bind, pure, Except.pure] at e
    cases e
    simp only [Queue.reportedStep]
    rw [o₁, usub, Nat.min_self]
    refine ⟨rfl, ?_⟩
    split <;> omega
  | _ => exact plain trivial rfl

private theorem reported_run {n : Nat} (hn : 2 ≤ n) (hsz : n < sizeMod) : ∀ (ops : List (Op α)) {r : Ring α} {q : List α},
    Rep n r q → r.overwritten < sizeMod → (∀ op ∈ ops, Queue.CallerOk op) → (∀ op ∈ ops, Queue.NotDropZero op) →
    ∀ {outs r'}, r.run ops = .ok (outs, r') → r'.overwritten = Queue.reported n q r.overwritten ops
  | [], r, q, h, hb, _, _, outs, r', e => by cases e; rfl
  | op :: ops, r, q, h, hb, hc, hd, outs, r', e => by
    obtain ⟨r₁, e₁, h₁⟩ := h.step op (hc op (by simp)) (.inl (hd op (by simp)))
    obtain ⟨o₁, b₁⟩ := reported_step hn h hb op (hc op (by simp)) (hd op (by simp)) e₁ hsz
    unfold Ring.run at e
    simp only [e₁, bind, Except.bind] at e
    cases hr : r₁.run ops with
    | error f => simp [hr] at e
    | ok y =>
      obtain ⟨os, r₂⟩ := y
      simp only [hr, pure, Except.pure] at e
      cases e
      rw [reported_run hn hsz ops h₁ b₁ (fun o ho => hc o (by simp [ho])) (fun o ho => hd o (by simp [ho])) hr, o₁]
      rfl

/-- **C05**, all histories: what `overrun_space()` reports after any history of calls of a buffer of at least two elements, with drops (of at least one element, see C04) and clears,
is `Queue.reported`, which is given by the queue alone. Without drops it is the number of elements lost (`C05_overrun_partial`). -/
theorem C05_histories (n : Nat) (hn : 2 ≤ n) (hsz : n < sizeMod) (b : Build) (init : α) (ops : List (Op α))
    (hc : ∀ op ∈ ops, Queue.CallerOk op) (hd : ∀ op ∈ ops, Queue.NotDropZero op) :
    ∃ r₀ r, create b n init = .ok r₀ ∧ r₀.run ops = .ok ((Queue.run n [] ops).1, r) ∧ r.overrunSpace = Queue.reported n [] 0 ops := by
  obtain ⟨r₀, e₀, h₀, o₀⟩ := Rep.create (show 0 < n by omega) b init
  obtain ⟨r, e, h⟩ := Rep.run ops h₀ hc hd
  refine ⟨r₀, r, e₀, e, ?_⟩
  have := reported_run hn hsz ops h₀ (by rw [o₀]; omega) hc hd e
  rw [o₀] at this
  exact this

private theorem mod_small {a : Nat} (h : a < 2 ^ 32) : a % sizeMod = a := Nat.mod_eq_of_lt (lt_sizeMod h)

/-- Two elements are lost; dropping the oldest of the four leaves 2, dropping the two newest 0, and clearing a buffer with one element wraps. -/
example : Queue.reported 4 [] 0 ([.pushMany [1, 2, 3, 4, 5, 6, 7] true, .dropFirst 1, .dropLast 2] : List (Op Nat)) = 0 ∧
    Queue.reported 4 [] 0 ([.pushMany [1, 2, 3, 4, 5, 6, 7] true, .dropFirst 1] : List (Op Nat)) = 2 ∧
    Queue.reported 4 [] 0 ([.push 1 true, .clear] : List (Op Nat)) = sizeMod - 1 := by
  simp [Queue.reported, Queue.reportedStep, Queue.lostStep, Queue.step, Queue.newest, mod_small]

end Spine
