import Verif.Model.RingCopies
import Verif.Proofs.RingBuffer
import Verif.Core.Bind
/-!
# C151: copies of a ring buffer
-/

namespace Spine

variable {α : Type}

/-! ## Specification: every ring buffer is a queue of its own -/

namespace Queues

/-- What an operation on ring buffers of capacity `n` means: each is a queue of its own, `none` if it does not exist or was moved from. -/
def step (n : Nat) (σ : Nat → Option (List α)) : Rings.Op α → Option (Option (Ring.Out α) × (Nat → Option (List α)))
  | .call h op => do
    let q ← σ h
    some (some (Queue.step n q op).1, fun k => if k = h then some (Queue.step n q op).2 else σ k)
  | .copy h other => do
    let q ← σ other
    some (none, fun k => if k = h then some q else σ k)
  | .move h other => do
    let q ← σ other
    some (none, fun k => if k = h then some q else if k = other then none else σ k)
  | .destroy h => do
    let _ ← σ h
    some (none, fun k => if k = h then none else σ k)

/-- A program. -/
def run (n : Nat) (σ : Nat → Option (List α)) : List (Rings.Op α) → Option (List (Option (Ring.Out α)) × (Nat → Option (List α)))
  | [] => some ([], σ)
  | op :: ops => do
    let (o, σ) ← step n σ op
    let (os, σ) ← run n σ ops
    some (o :: os, σ)

/-- The operation does not write into a ring buffer, move it, or destroy the ring buffer 0. -/
def Reads : Rings.Op α → Prop
  | .call _ (.push _ _) => False
  | .call _ (.pushMany _ _) => False
  | .call _ op => Queue.CallerOk op ∧ Queue.NotDropZero op
  | .copy _ _ => True
  | .move _ _ => False
  | .destroy h => h ≠ 0

end Queues

namespace Rings

open Ring

theorem popLoop_buf : ∀ (k : Nat) (r : Ring α) (dst : List α) (i : Nat) {x : List α × Ring α}, r.popLoop dst i k = .ok x → x.2.buf = r.buf
  | 0, r, dst, i, x, h => by cases h; rfl
  | k + 1, r, dst, i, x, h => by
    rw [Ring.popLoop] at h
    obtain ⟨⟨v, r₁⟩, h1, h⟩ := res_bind h
    have h' : ∃ d, r₁.popLoop d (i + 1) k = .ok x := by
      cases v with
      | none => exact ⟨dst, h⟩
      | some v => obtain ⟨d, -, h⟩ := res_bind h; exact ⟨d, h⟩
    obtain ⟨d, h⟩ := h'
    rw [popLoop_buf k _ _ _ h]
    rw [Ring.pop] at h1
    split at h1
    · cases h1; rfl
    · obtain ⟨v, -, h1⟩ := res_bind h1
      obtain ⟨t, -, h1⟩ := res_bind h1
      cases h1; rfl

theorem dropLast_buf {r : Ring α} {k : Nat} {x : Nat × Ring α} (h : r.dropLast k = .ok x) : x.2.buf = r.buf := by
  rw [Ring.dropLast] at h
  obtain ⟨r₁, h1, h⟩ := res_bind h
  rw [Ring.retractHead] at h1
  obtain ⟨a, -, h1⟩ := res_bind h1
  obtain ⟨c, -, h1⟩ := res_bind h1
  cases h1; cases h; rfl

/-- A call that does not push leaves the block as it is. -/
theorem step_buf {r : Ring α} {op : Ring.Op α} (hp : ∀ v ro, op ≠ .push v ro) (hm : ∀ vs ro, op ≠ .pushMany vs ro) {x : Out α × Ring α} (h : r.step op = .ok x) : x.2.buf = r.buf := by
  cases op with
  | push v ro => exact absurd rfl (hp v ro)
  | pushMany vs ro => exact absurd rfl (hm vs ro)
  | pop =>
    rw [Ring.step] at h
    obtain ⟨⟨v, r₁⟩, h1, h⟩ := res_bind h
    cases h
    rw [Ring.pop] at h1
    split at h1
    · cases h1; rfl
    · obtain ⟨v, -, h1⟩ := res_bind h1
      obtain ⟨t, -, h1⟩ := res_bind h1
      cases h1; rfl
  | popMany dst k =>
    rw [Ring.step] at h
    obtain ⟨⟨⟨n, d⟩, r₁⟩, h1, h⟩ := res_bind h
    cases h
    rw [Ring.popMany] at h1
    split at h1
    · cases h1; rfl
    · obtain ⟨⟨d', r₂⟩, h2, h1⟩ := res_bind h1
      cases h1
      exact popLoop_buf _ _ _ _ h2
  | peekAt i =>
    rw [Ring.step] at h
    obtain ⟨v, -, h⟩ := res_bind h
    cases h; rfl
  | dropLast k =>
    rw [Ring.step] at h
    obtain ⟨⟨n, r₁⟩, h1, h⟩ := res_bind h
    cases h
    exact dropLast_buf h1
  | dropFirst k =>
    rw [Ring.step] at h
    obtain ⟨⟨n, r₁⟩, h1, h⟩ := res_bind h
    cases h
    rw [Ring.dropFirst] at h1
    obtain ⟨r₂, h2, h1⟩ := res_bind h1
    rw [Ring.advanceTail] at h2
    obtain ⟨a, -, h2⟩ := res_bind h2
    cases h2; cases h1; rfl
  | clear =>
    rw [Ring.step] at h
    obtain ⟨r₁, h1, h⟩ := res_bind h
    cases h
    rw [Ring.clear] at h1
    obtain ⟨⟨n, r₂⟩, h2, h1⟩ := res_bind h1
    cases h1
    exact dropLast_buf h2
  | usedSpace => cases h; rfl
  | freeSpace => cases h; rfl
  | empty => cases h; rfl
  | full => cases h; rfl
  | capacity => cases h; rfl

/-- The ring buffers hold these queues. -/
structure Rel (n : Nat) (s : Rings α) (σ : Nat → Option (List α)) : Prop where
  freed : s.freed = false
  none : ∀ h, σ h = none → s.views h = none
  some : ∀ h q, σ h = some q → ∃ v, s.views h = some v ∧ v.null = false ∧ Rep n (s.ring v) q
  owner : ∀ h v, s.views h = Option.some v → v.owner = true → h = 0

theorem Rel.step {n : Nat} {s : Rings α} {σ σ' : Nat → Option (List α)} {o : Option (Out α)} (hr : Rel n s σ) {op : Op α} (hop : Queues.Reads op) (h : Queues.step n σ op = Option.some (o, σ')) :
    ∃ s', s.step op = .ok (o, s') ∧ Rel n s' σ' := by
  cases op with
  | call k op =>
    obtain ⟨q, hq, h⟩ := Option.bind_eq_some_iff.mp h
    cases h
    have hp : ∀ v ro, op ≠ .push v ro := by rintro v ro rfl; exact hop
    have hm : ∀ vs ro, op ≠ .pushMany vs ro := by rintro v ro rfl; exact hop
    have hc : Queue.CallerOk op ∧ Queue.NotDropZero op := by
      cases op <;> first | exact hop.elim | exact hop
    obtain ⟨v, hv, hnull, hrep⟩ := hr.some k q hq
    obtain ⟨r', e, hrep'⟩ := hrep.step op hc.1 (.inl hc.2)
    have hb : r'.buf = s.buf := step_buf hp hm e
    refine ⟨{ s with buf := r'.buf }.set k (Option.some { v with head := r'.head, tail := r'.tail, overwritten := r'.overwritten, isFull := r'.isFull }), ?_, hr.freed, ?_, ?_, ?_⟩
    · simp only [Rings.step, Rings.call, view, hv, res_bind_ok, hr.freed, hnull, Bool.or_self, Bool.false_and, Bool.false_eq_true, if_false, e, res_pure]
    · intro k' h'
      simp only [Rings.set] at h' ⊢
      split
      · rename_i hk; simp [hk] at h'
      · rename_i hk; rw [if_neg hk] at h'; exact hr.none _ h'
    · intro k' q' h'
      simp only [Rings.set] at h' ⊢
      by_cases hk : k' = k
      · rw [if_pos hk] at h' ⊢
        cases h'
        exact ⟨_, rfl, hnull, hrep'⟩
      · rw [if_neg hk] at h' ⊢
        obtain ⟨v', h1, h2, h3⟩ := hr.some k' q' h'
        exact ⟨v', h1, h2, by simp only [Rings.ring, hb]; exact h3⟩
    · intro k' v' h' ho
      simp only [Rings.set] at h'
      by_cases hk : k' = k
      · rw [if_pos hk] at h'
        cases h'
        exact hk.trans (hr.owner k v hv ho)
      · rw [if_neg hk] at h'
        exact hr.owner k' v' h' ho
  | copy k other =>
    obtain ⟨q, hq, h⟩ := Option.bind_eq_some_iff.mp h
    cases h
    obtain ⟨v, hv, hnull, hrep⟩ := hr.some other q hq
    by_cases hko : k = other
    · subst hko
      have hσ : (fun k' => if k' = k then Option.some q else σ k') = σ := by
        funext k'; by_cases h' : k' = k
        · rw [if_pos h', h', hq]
        · rw [if_neg h']
      rw [hσ]
      exact ⟨s, by simp only [Rings.step, Rings.copy, view, hv, res_bind_ok, res_pure, if_true], hr⟩
    refine ⟨s.set k (Option.some { v with owner := false }), ?_, hr.freed, ?_, ?_, ?_⟩
    · simp only [Rings.step, Rings.copy, view, hv, res_bind_ok, res_pure, if_neg hko]
    · intro k' h'
      simp only [Rings.set] at h' ⊢
      split
      · rename_i hk; simp [hk] at h'
      · rename_i hk; rw [if_neg hk] at h'; exact hr.none _ h'
    · intro k' q' h'
      simp only [Rings.set] at h' ⊢
      by_cases hk : k' = k
      · rw [if_pos hk] at h' ⊢
        cases h'
        exact ⟨_, rfl, hnull, hrep⟩
      · rw [if_neg hk] at h' ⊢
        exact hr.some k' q' h'
    · intro k' v' h' ho
      simp only [Rings.set] at h'
      by_cases hk : k' = k
      · rw [if_pos hk] at h'
        cases h'
        cases ho
      · rw [if_neg hk] at h'
        exact hr.owner k' v' h' ho
  | move k other => exact hop.elim
  | destroy k =>
    obtain ⟨q, hq, h⟩ := Option.bind_eq_some_iff.mp h
    cases h
    obtain ⟨v, hv, hnull, hrep⟩ := hr.some k q hq
    have how : v.owner = false := by
      cases ho : v.owner with
      | false => rfl
      | true => exact absurd (hr.owner k v hv ho) hop
    refine ⟨{ s with freed := s.freed || (v.owner && !v.null) }.set k .none, ?_, ?_, ?_, ?_, ?_⟩
    · simp only [Rings.step, Rings.destroy, view, hv, res_bind_ok, res_pure, how, Bool.false_and, Bool.false_eq_true, if_false]
    · simp only [Rings.set, hr.freed, how, Bool.false_and, Bool.or_false]
    · intro k' h'
      simp only [Rings.set] at h' ⊢
      split
      · rfl
      · rename_i hk; rw [if_neg hk] at h'; exact hr.none _ h'
    · intro k' q' h'
      simp only [Rings.set] at h' ⊢
      by_cases hk : k' = k
      · rw [if_pos hk] at h'; cases h'
      · rw [if_neg hk] at h' ⊢
        exact hr.some k' q' h'
    · intro k' v' h' ho
      simp only [Rings.set] at h'
      by_cases hk : k' = k
      · rw [if_pos hk] at h'; cases h'
      · rw [if_neg hk] at h'
        exact hr.owner k' v' h' ho

theorem Rel.run {n : Nat} : ∀ (ops : List (Op α)) {s : Rings α} {σ σ' : Nat → Option (List α)} {os : List (Option (Out α))}, Rel n s σ → (∀ op ∈ ops, Queues.Reads op) →
    Queues.run n σ ops = Option.some (os, σ') → ∃ s', s.run ops = .ok (os, s') ∧ Rel n s' σ'
  | [], s, σ, σ', os, hr, _, h => by cases h; exact ⟨s, rfl, hr⟩
  | op :: ops, s, σ, σ', os, hr, hops, h => by
    obtain ⟨⟨o, σ₁⟩, h1, h⟩ := Option.bind_eq_some_iff.mp h
    obtain ⟨⟨os', σ₂⟩, h2, h⟩ := Option.bind_eq_some_iff.mp h
    cases h
    obtain ⟨s₁, e1, hr₁⟩ := hr.step (hops op (by simp)) h1
    obtain ⟨s₂, e2, hr₂⟩ := Rel.run ops hr₁ (fun o ho => hops o (by simp [ho])) h2
    exact ⟨s₂, by simp only [Rings.run, e1, e2, res_bind_ok, res_pure], hr₂⟩

theorem rel_single {n : Nat} {r : Ring α} {q : List α} (h : Rep n r q) : Rel n (single 0 r) (fun k => if k = 0 then Option.some q else Option.none) where
  freed := rfl
  none := by
    intro k h'
    simp only [single]
    split
    · rename_i hk; simp [hk] at h'
    · rfl
  some := by
    intro k q' h'
    simp only [single]
    by_cases hk : k = 0
    · rw [if_pos hk] at h' ⊢
      cases h'
      exact ⟨_, rfl, rfl, h⟩
    · rw [if_neg hk] at h'; cases h'
  owner := by
    intro k v h' _
    simp only [single] at h'
    by_cases hk : k = 0
    · exact hk
    · rw [if_neg hk] at h'; cases h'

end Rings

/-- C151 (partial). A ring buffer, after any history, and all copies made of it and of its copies, behave as queues of their own in every program that only takes elements out, looks at
them, copies ring buffers and destroys copies. Missing: programs that push (`C151_push_counterexample`, `C151_rollover_counterexample`), move (`C151_moved_counterexample`) or destroy the ring
buffer the copies were made of (`C151_dangling_counterexample`). -/
theorem C151_reading_partial {n : Nat} (hn : 0 < n) {r : Ring α} (h : Ring.Reachable n r) {q : List α} (hq : r.Holds q) {ops : List (Rings.Op α)} (hops : ∀ op ∈ ops, Queues.Reads op)
    {os : List (Option (Ring.Out α))} {σ : Nat → Option (List α)} (hs : Queues.run n (fun k => if k = 0 then some q else none) ops = some (os, σ)) :
    ∃ s, (Rings.single 0 r).run ops = .ok (os, s) ∧ ∀ k q', σ k = some q' → ∃ v, s.views k = some v ∧ (s.ring v).Holds q' := by
  obtain ⟨q', hq'⟩ := h.rep hn
  obtain rfl := hq'.holds.unique hq
  obtain ⟨s, e, hr⟩ := Rings.Rel.run ops (Rings.rel_single hq') hops hs
  refine ⟨s, e, fun k q' hk => ?_⟩
  obtain ⟨v, h1, -, h2⟩ := hr.some k q' hk
  exact ⟨v, h1, h2.holds⟩

/-- A copy is read to the end and destroyed; the ring buffer still has its elements. -/
example : ∃ σ, Queues.run 3 (fun k => if k = 0 then some [1, 2] else none) [.copy 1 0, .call 1 .pop, .call 1 .pop, .destroy 1, .call 0 .pop] =
    some ([none, some (.val (some 1)), some (.val (some 2)), none, some (.val (some 1))], σ) := ⟨_, rfl⟩

theorem push_form {r : Ring α} (hf : r.isFull = false) (hl : r.head < r.buf.length) (x : α) (ro : Bool) : r.push x ro =
    .ok (true, { r with buf := r.buf.set r.head x, head := (r.head + 1) % r.buf.length, isFull := decide ((r.head + 1) % r.buf.length = r.tail) }) := by
  have hm : umod (r.head + 1) r.buf.length = .ok ((r.head + 1) % r.buf.length) := by rw [umod, if_neg (by omega)]
  simp only [Ring.push, hf, Bool.false_and, Bool.false_eq_true, if_false, wr_ok hl, hm, res_bind_ok, res_pure]
  by_cases h : (r.head + 1) % r.buf.length = r.tail
  · simp [h]
  · simp [h, hf]

theorem push_full_form {r : Ring α} (hf : r.isFull = true) (hl : r.head < r.buf.length) (x : α) : ∃ r', r.push x true = .ok (true, r') ∧ r'.buf = r.buf.set r.head x := by
  have hm : ∀ k, umod k r.buf.length = .ok (k % r.buf.length) := fun k => by rw [umod, if_neg (by omega)]
  simp only [Ring.push, hf, Bool.not_true, Bool.and_false, Bool.false_eq_true, if_false, wr_ok hl, hm, res_bind_ok, res_pure]
  by_cases h : (r.head + 1) % r.buf.length = r.tail
  · rw [if_pos h]; exact ⟨_, rfl, rfl⟩
  · rw [if_neg h, if_pos trivial]; exact ⟨_, rfl, rfl⟩

/-- The members of a ring buffer after a call. -/
def RingView.after (v : RingView) (r : Ring α) : RingView := { v with head := r.head, tail := r.tail, overwritten := r.overwritten, isFull := r.isFull }

theorem call_ok {s : Rings α} {h : Nat} {v : RingView} (hv : s.views h = some v) (hf : s.freed = false) (hn : v.null = false) {op : Ring.Op α} {o : Ring.Out α} {r : Ring α}
    (e : (s.ring v).step op = .ok (o, r)) : s.step (.call h op) = .ok (some o, { s with buf := r.buf }.set h (some (v.after r))) := by
  have hg : (s.freed || v.null) = false := by rw [hf, hn]; rfl
  simp only [Rings.step, Rings.call, Rings.view, hv, res_bind_ok, hg, Bool.false_and, Bool.false_eq_true, if_false, e, res_pure]
  rfl

theorem call_gone {s : Rings α} {h : Nat} {v : RingView} (hv : s.views h = some v) (hf : s.freed = true ∨ v.null = true) {op : Ring.Op α} (ht : (s.ring v).touches op = true) :
    s.call h op = .error .ub := by
  have : (s.freed || v.null) = true := by simpa using hf
  simp only [Rings.call, Rings.view, hv, res_bind_ok, this, ht, Bool.and_self, if_true, throw, throwThe, MonadExceptOf.throw, res_bind_error]

theorem call_free {s : Rings α} {h : Nat} {v : RingView} (hv : s.views h = some v) {op : Ring.Op α} (ht : (s.ring v).touches op = false) {o : Ring.Out α} {r : Ring α}
    (e : (s.ring v).step op = .ok (o, r)) : s.step (.call h op) = .ok (some o, { s with buf := r.buf }.set h (some (v.after r))) := by
  simp only [Rings.step, Rings.call, Rings.view, hv, res_bind_ok, ht, Bool.and_false, Bool.false_eq_true, if_false, e, res_pure]
  rfl

theorem run_cons {s s' : Rings α} {op : Rings.Op α} {o : Option (Ring.Out α)} (e : s.step op = .ok (o, s')) {ops : List (Rings.Op α)} {os : List (Option (Ring.Out α))} {s'' : Rings α}
    (e' : s'.run ops = .ok (os, s'')) : s.run (op :: ops) = .ok (o :: os, s'') := by
  simp only [Rings.run, e, e', res_bind_ok, res_pure]

/-- C151 is false when both push: the elements take the same slot. Whatever ring buffer with room is copied, after a push into it and a push into the copy it ends with the element that was
pushed into the copy. -/
theorem C151_push_counterexample {n : Nat} (hn : 0 < n) {r : Ring α} (h : Ring.Reachable n r) {q : List α} (hq : r.Holds q) (hroom : q.length < n) (x y : α) :
    ∃ s v, (Rings.single 0 r).run [.copy 1 0, .call 0 (.push x false), .call 1 (.push y false)] = .ok ([none, some (.bool true), some (.bool true)], s) ∧
      s.views 0 = some v ∧ (s.ring v).Holds (q ++ [y]) := by
  obtain ⟨q', hq'⟩ := h.rep hn
  obtain rfl := hq'.holds.unique hq
  have hf : r.isFull = false := by rw [hq'.fullIff]; simp; omega
  have hl : r.head < r.buf.length := by rw [hq'.len]; exact hq'.headLt
  obtain ⟨r', e, hr, -⟩ := hq'.push_space y false hroom
  rw [push_form hf hl] at e
  cases e
  have e1 : (Rings.single 0 r).step (.copy 1 0) = .ok (none, (Rings.single 0 r).set 1 (some ⟨r.head, r.tail, r.overwritten, r.isFull, false, false⟩)) := rfl
  obtain ⟨s₁, hs₁⟩ : ∃ s₁ : Rings α, s₁ = (Rings.single 0 r).set 1 (some ⟨r.head, r.tail, r.overwritten, r.isFull, false, false⟩) := ⟨_, rfl⟩
  obtain ⟨r₂, hr₂⟩ : ∃ r₂ : Ring α, r₂ = { r with buf := r.buf.set r.head x, head := (r.head + 1) % r.buf.length, isFull := decide ((r.head + 1) % r.buf.length = r.tail) } := ⟨_, rfl⟩
  have e2 : s₁.step (.call 0 (.push x false)) = _ := call_ok (v := ⟨r.head, r.tail, r.overwritten, r.isFull, true, false⟩) (by rw [hs₁]; rfl) (by rw [hs₁]; rfl) rfl
    (o := .bool true) (r := r₂) (by rw [hs₁]; show Ring.step r _ = _; simp only [Ring.step]; rw [push_form hf hl, hr₂]; rfl)
  obtain ⟨s₂, hs₂⟩ : ∃ s₂ : Rings α, s₂ = { s₁ with buf := r₂.buf }.set 0 (some (RingView.after ⟨r.head, r.tail, r.overwritten, r.isFull, true, false⟩ r₂)) := ⟨_, rfl⟩
  rw [← hs₂] at e2
  obtain ⟨r₃, hr₃⟩ : ∃ r₃ : Ring α, r₃ = { r with buf := r.buf.set r.head y, head := (r.head + 1) % r.buf.length, isFull := decide ((r.head + 1) % r.buf.length = r.tail) } := ⟨_, rfl⟩
  have e3 : s₂.step (.call 1 (.push y false)) = _ := call_ok (v := ⟨r.head, r.tail, r.overwritten, r.isFull, false, false⟩) (by rw [hs₂, hs₁]; rfl) (by rw [hs₂, hs₁]; rfl) rfl
    (o := .bool true) (r := r₃) (by
      rw [hs₂, hs₁, hr₂]
      show Ring.step { r with buf := r.buf.set r.head x } _ = _
      simp only [Ring.step]
      rw [push_form (r := { r with buf := r.buf.set r.head x }) hf (by simpa using hl), hr₃]
      simp only [List.set_set, List.length_set]
      rfl)
  rw [← hs₁] at e1
  refine ⟨_, RingView.after ⟨r.head, r.tail, r.overwritten, r.isFull, true, false⟩ r₂, run_cons e1 (run_cons e2 (run_cons e3 rfl)), by rw [hs₂]; rfl, ?_⟩
  rw [hr₂, hr₃]
  exact hr.holds

/-- C151 is false for a full ring buffer: a push into its copy, with rollover, replaces its oldest element. -/
theorem C151_rollover_counterexample {n : Nat} (hn : 0 < n) {r : Ring α} (h : Ring.Reachable n r) {a : α} {q : List α} (hq : r.Holds (a :: q)) (hfull : q.length + 1 = n) (y : α) :
    ∃ s v, (Rings.single 0 r).run [.copy 1 0, .call 1 (.push y true)] = .ok ([none, some (.bool true)], s) ∧ s.views 0 = some v ∧ (s.ring v).Holds (y :: q) := by
  obtain ⟨q', hq'⟩ := h.rep hn
  obtain rfl := hq'.holds.unique hq
  have hf : r.isFull = true := by rw [hq'.fullIff]; simp; omega
  have hl : r.head < r.buf.length := by rw [hq'.len]; exact hq'.headLt
  obtain ⟨r', e, hb⟩ := push_full_form hf hl y
  have ht := hq'.tailLt
  have hh : r.head = r.tail := by rw [hq'.headEq]; simp only [wrap, List.length_cons]; rw [if_neg (by omega)]; omega
  have e1 : (Rings.single 0 r).step (.copy 1 0) = .ok (none, (Rings.single 0 r).set 1 (some ⟨r.head, r.tail, r.overwritten, r.isFull, false, false⟩)) := rfl
  have e2 := call_ok (s := (Rings.single 0 r).set 1 (some ⟨r.head, r.tail, r.overwritten, r.isFull, false, false⟩)) (h := 1) (v := ⟨r.head, r.tail, r.overwritten, r.isFull, false, false⟩)
    rfl rfl rfl (op := .push y true) (o := .bool true) (r := r') (by show Ring.step r _ = _; simp only [Ring.step]; rw [e]; rfl)
  refine ⟨_, ⟨r.head, r.tail, r.overwritten, r.isFull, true, false⟩, run_cons e1 (run_cons e2 rfl), rfl, Ring.Rep.holds (n := n) ⟨?_, hn, ht, ?_, hq'.headEq, hq'.fullIff, ?_⟩⟩
  · show r'.buf.length = n
    rw [hb, List.length_set, hq'.len]
  · simp only [List.length_cons]; omega
  · intro i hi
    show r'.buf[wrap n (r.tail + i)]? = _
    rw [hb, hh, List.getElem?_set]
    simp only [List.length_cons] at hi
    cases i with
    | zero =>
      rw [if_pos (by simp only [wrap]; rw [if_pos (by omega)]; rfl), if_pos (by rw [hq'.len]; exact ht)]
      rfl
    | succ i =>
      rw [if_neg (by simp only [wrap]; split <;> omega), hq'.slots (i + 1) (by simp; omega)]
      rfl

/-- C151 is false once the ring buffer was destroyed: the copy still tells how many elements it has, but taking one out of it or looking at one reads freed memory. -/
theorem C151_dangling_counterexample {n : Nat} (hn : 0 < n) {r : Ring α} (h : Ring.Reachable n r) {a : α} {q : List α} (hq : r.Holds (a :: q)) :
    ∃ s, (Rings.single 0 r).run [.copy 1 0, .destroy 0, .call 1 .usedSpace] = .ok ([none, none, some (.num (q.length + 1))], s) ∧
      s.call 1 .pop = .error .ub ∧ ∀ i ≤ q.length, s.call 1 (.peekAt i) = .error .ub := by
  obtain ⟨q', hq'⟩ := h.rep hn
  obtain rfl := hq'.holds.unique hq
  have hu : r.usedSpace = q.length + 1 := hq'.used
  have e1 : (Rings.single 0 r).step (.copy 1 0) = .ok (none, (Rings.single 0 r).set 1 (some ⟨r.head, r.tail, r.overwritten, r.isFull, false, false⟩)) := rfl
  have e2 : ((Rings.single 0 r).set 1 (some ⟨r.head, r.tail, r.overwritten, r.isFull, false, false⟩)).step (.destroy 0) =
    .ok (none, { (Rings.single 0 r).set 1 (some ⟨r.head, r.tail, r.overwritten, r.isFull, false, false⟩) with freed := true }.set 0 none) := rfl
  have e3 := call_free (s := { (Rings.single 0 r).set 1 (some ⟨r.head, r.tail, r.overwritten, r.isFull, false, false⟩) with freed := true }.set 0 none) (h := 1)
    (v := ⟨r.head, r.tail, r.overwritten, r.isFull, false, false⟩) rfl (op := .usedSpace) rfl (o := .num (q.length + 1)) (r := r) (by rw [← hu]; rfl)
  refine ⟨_, run_cons e1 (run_cons e2 (run_cons e3 rfl)), call_gone (v := ⟨r.head, r.tail, r.overwritten, r.isFull, false, false⟩) rfl (.inl rfl) ?_,
    fun i hi => call_gone (v := ⟨r.head, r.tail, r.overwritten, r.isFull, false, false⟩) rfl (.inl rfl) ?_⟩
  · show (!r.empty) = true
    rw [hq'.emptyEq]; simp
  · show decide (i < r.usedSpace) = true
    rw [hu]; simp; omega

/-- C151 is false for a ring buffer that was moved from: it still tells how many elements it has, but looking at one follows a null pointer, and so does every push into it if there was room. -/
theorem C151_moved_counterexample {n : Nat} (hn : 0 < n) {r : Ring α} (h : Ring.Reachable n r) {q : List α} (hq : r.Holds q) :
    ∃ s, (Rings.single 0 r).run [.move 1 0, .call 0 .usedSpace] = .ok ([none, some (.num q.length)], s) ∧
      (∀ i < q.length, s.call 0 (.peekAt i) = .error .ub) ∧ (q.length < n → ∀ x ro, s.call 0 (.push x ro) = .error .ub) := by
  obtain ⟨q', hq'⟩ := h.rep hn
  obtain rfl := hq'.holds.unique hq
  have hu := hq'.used
  have e1 : (Rings.single 0 r).step (.move 1 0) = .ok (none, ((Rings.single 0 r).set 0 (some ⟨r.head, r.tail, r.overwritten, r.isFull, true, true⟩)).set 1
    (some ⟨r.head, r.tail, r.overwritten, r.isFull, true, false⟩)) := rfl
  have e2 := call_free (s := ((Rings.single 0 r).set 0 (some ⟨r.head, r.tail, r.overwritten, r.isFull, true, true⟩)).set 1 (some ⟨r.head, r.tail, r.overwritten, r.isFull, true, false⟩)) (h := 0)
    (v := ⟨r.head, r.tail, r.overwritten, r.isFull, true, true⟩) rfl (op := .usedSpace) rfl (o := .num q'.length) (r := r) (by rw [← hu]; rfl)
  refine ⟨_, run_cons e1 (run_cons e2 rfl), fun i hi => call_gone (v := ⟨r.head, r.tail, r.overwritten, r.isFull, true, true⟩) rfl (.inr rfl) ?_,
    fun hroom x ro => call_gone (v := ⟨r.head, r.tail, r.overwritten, r.isFull, true, true⟩) rfl (.inr rfl) ?_⟩
  · show decide (i < r.usedSpace) = true
    rw [hu]; simpa using hi
  · show (!(r.isFull && !ro)) = true
    rw [hq'.fullIff]; simp; omega

/-- A ring buffer as in the counterexamples, with room and elements. -/
example : ∃ (r : Ring Nat) (s : Rings Nat), Ring.Reachable 3 r ∧ r.usedSpace = 2 ∧
    (Rings.single 0 r).run [.copy 1 0, .call 0 (.push 3 false), .call 1 (.push 4 false), .call 0 (.peekAt 2)] =
      .ok ([none, some (.bool true), some (.bool true), some (.val (some 4))], s) := ⟨_, _, ⟨.debug, 0, _, [.push 1 false, .push 2 false], _, rfl, rfl⟩, rfl, rfl⟩

end Spine
