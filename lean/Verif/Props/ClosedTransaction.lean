import Verif.Props.Stream
import Verif.Core.Bind
/-!
# C141: using a `Transaction` after it has ended
-/

namespace Spine

open BufStream Transaction

variable {σ : Type} {S : Stream σ}

/-- C141, debug build: on a transaction that was committed, aborted or moved from, every call but the destructor fails an assertion. -/
theorem C141_debug {t : Transaction} (h : t.finalized = true) (s : BufStream σ) (v : Byte) (vs : List Byte) :
    t.incoming .debug s = .error .assertFailed ∧ t.outgoingChar .debug s v = .error .assertFailed ∧ t.outgoing .debug s vs = .error .assertFailed ∧
      t.commit .debug s = .error .assertFailed ∧ t.abort .debug s = .error .assertFailed := by
  simp only [incoming, outgoingChar, outgoing, commit, abort, h, Bool.not_true, spnAssert_debug_false, res_bind_error, and_self]

/-- A transaction after `commit()`, `abort()` or the body of the destructor. -/
theorem ended_eq {b : Build} {t t' : Transaction} {s s' : BufStream σ} (ht : t.finalized = false) (ha : t.attached = true)
    (h : t.commit b s = .ok (t', s') ∨ t.abort b s = .ok (t', s')) : t' = ⟨true, none, 0, true⟩ := by
  have hf : ∀ {u : Transaction} {x : BufStream σ}, u.finalized = false → u.attached = true → u.finalize b x = .ok (t', s') → t' = ⟨true, none, 0, true⟩ := by
    intro u x h1 h2 h
    unfold finalize at h
    simp only [h1, Bool.not_false, spnAssert_true, res_bind_ok, Bool.false_eq_true, if_false, deref, h2, if_true] at h
    obtain ⟨⟨k, y⟩, -, h⟩ := res_bind h
    cases h
    rfl
  rcases h with h | h
  · unfold commit at h
    rw [ht, Bool.not_false, spnAssert_true, res_bind_ok] at h
    exact hf (u := { t with queued := 0 }) ht ha (by simpa [ht] using h)
  · unfold abort at h
    simp only [ht, Bool.not_false, spnAssert_true, res_bind_ok] at h
    obtain ⟨x, -, h⟩ := res_bind h
    exact hf ht ha h

/-- C141 (partial), release build: once a transaction has ended, `incoming()` is empty, destroying it and committing it again have no effect, and neither has aborting it if the output
buffer is not full.  Missing: `abort()` with a full output buffer and `outgoing()` (the counterexamples), and objects that were moved from. -/
theorem C141_release_partial {n m : Nat} (hn : 0 < n) (hm : 0 < m) {b : Build} {t t' : Transaction} {s₀ s₁ : BufStream σ} (ht : t.finalized = false) (ha : t.attached = true)
    (he : t.commit b s₀ = .ok (t', s₁) ∨ t.abort b s₀ = .ok (t', s₁)) {s : BufStream σ} (hs : Reachable S n m s) {p : List Byte} (hp : s.output.Holds p) :
    t'.incoming .release s = .ok [] ∧ t'.destroy .release s = .ok s ∧ t'.commit .release s = .ok (t', s) ∧
      (p.length < m → ∃ s', t'.abort .release s = .ok (t', s') ∧ s'.input = s.input ∧ s'.stream = s.stream ∧ s'.output.Holds p) := by
  obtain rfl := ended_eq ht ha he
  refine ⟨rfl, rfl, rfl, ?_⟩
  intro hl
  obtain ⟨q', p', hi⟩ := hs.inv hn hm
  obtain rfl := hi.output.holds.unique hp
  obtain ⟨r', ed, hr', -⟩ := hi.output.dropLast 0 (.inr hl)
  refine ⟨{ s with output := { s.output with ring := r' } }, ?_, rfl, rfl, ?_⟩
  · unfold abort undo outputDropLast finalize
    simp [deref, ed]
  · have := hr'.holds
    rw [Nat.sub_zero, List.take_length] at this
    exact this

/-- C141 is false in release builds when the output buffer is full: aborting a transaction that was already committed deletes all the output, the committed reply included. -/
theorem C141_abort_counterexample {n m : Nat} (hn : 0 < n) (hm : 0 < m) {b : Build} {t t' : Transaction} {s₀ s₁ : BufStream σ} (ht : t.finalized = false) (ha : t.attached = true)
    (he : t.commit b s₀ = .ok (t', s₁)) (hs : Reachable S n m s₁) {p : List Byte} (hp : s₁.output.Holds p) (hl : p.length = m) :
    p ≠ [] ∧ ∃ s', t'.abort .release s₁ = .ok (t', s') ∧ s'.output.Holds [] := by
  obtain rfl := ended_eq ht ha (.inl he)
  obtain ⟨q', p', hi⟩ := hs.inv hn hm
  obtain rfl := hi.output.holds.unique hp
  refine ⟨by rintro rfl; simp at hl; omega, ?_⟩
  obtain ⟨r', ed, hr'⟩ := hi.output.dropLast_zero_full hl
  refine ⟨{ s₁ with output := { s₁.output with ring := r' } }, ?_, hr'.holds⟩
  unfold abort undo outputDropLast finalize
  simp [deref, ed]

/-- C141 is false in release builds for `outgoing()`: as long as there is space, a transaction that has ended still appends to the output. -/
theorem C141_outgoing_counterexample {n m : Nat} (hn : 0 < n) (hm : 0 < m) {b : Build} {t t' : Transaction} {s₀ s₁ : BufStream σ} (ht : t.finalized = false) (ha : t.attached = true)
    (he : t.commit b s₀ = .ok (t', s₁) ∨ t.abort b s₀ = .ok (t', s₁)) {s : BufStream σ} (hs : Reachable S n m s) {p : List Byte} (hp : s.output.Holds p)
    (hl : p.length < m) (v : Byte) : ∃ t'' s', t'.outgoingChar .release s v = .ok (1, t'', s') ∧ s'.output.Holds (p ++ [v]) := by
  obtain rfl := ended_eq ht ha he
  obtain ⟨q', p', hi⟩ := hs.inv hn hm
  obtain rfl := hi.output.holds.unique hp
  obtain ⟨r', e, h', -⟩ := hi.output.push_space v false hl
  have hfree := hi.output.free
  refine ⟨⟨true, none, 1, true⟩, { s with output := { s.output with ring := r' } }, ?_, h'.holds⟩
  unfold outgoingChar spaceLeft deref bufferedWrite
  simp only [hfree, spnAssert_release, if_true, res_bind_ok, res_pure]
  rw [if_neg (by omega)]
  simp only [e, res_bind_ok, if_true]

/-- The story of the counterexamples, in a release build: a request `a`, a reply of two bytes into an output buffer of two, `commit()`, `abort()`; how many bytes are waiting before and
after the `abort()`, and what `outgoing()` returns then. -/
example : (do
    let s ← Device.create .release 8 8 8 2 [10]
    let (_, s) ← Device.run Mock.port 9 s ⟨[], [], [], [], 0⟩ [.inject [97, 10], .pull]
    let some t ← Transaction.new .release s | return none
    let (_, t, s) ← t.outgoing .release s [1, 2]
    let (t, s) ← t.commit .release s
    let before := s.output.ring.usedSpace
    let (t, s) ← t.abort .release s
    let after := s.output.ring.usedSpace
    let (k, _, s) ← t.outgoingChar .release s 3
    return some (before, after, k, s.output.ring.usedSpace)) = (.ok (some (2, 0, 1, 1)) : Res (Option (Nat × Nat × Nat × Nat))) := by rfl

/-- C141 is false in release builds for an object that was moved from: `incoming()` still shows the line, and `outgoing()` and `abort()` follow a null pointer. -/
theorem C141_moved_counterexample (t : Transaction) (s : BufStream σ) (v : Byte) :
    (moveConstruct t).2.incoming .release s = (match t.incomingLine with | none => .ok [] | some w => s.input.readView w) ∧
      (moveConstruct t).2.outgoingChar .release s v = .error .ub ∧ (moveConstruct t).2.abort .release s = .error .ub := by
  refine ⟨?_, rfl, ?_⟩
  · simp only [incoming, moveConstruct]
    cases t.incomingLine <;> rfl
  · unfold abort undo
    simp [moveConstruct, deref]

end Spine
