import Verif.Props.LeakyBucket
/-!
# Property C213: two ring buffers, one behind the other

A program puts elements into a first buffer, moves them to a second one when it has time, and takes
them out of the second (`RingBuffer::push`, `pop` and `full`,
`src/spine/structure/ringbuffer.hpp`).  The transfer looks for a free place in the second buffer
before it takes an element out of the first.
-/

namespace Spine
namespace RingChain

open Ring LeakyBucket

variable {α : Type}

/-! ## The program of the user -/

/-- `while (k-- > 0 && !out.full() && in.pop(v)) out.push(v);` -/
def transfer : Nat → Ring α → Ring α → Res (Ring α × Ring α)
  | 0, a, z => .ok (a, z)
  | k + 1, a, z =>
    if z.full then .ok (a, z)
    else do
      let (v, a) ← a.pop
      match v with
      | none => pure (a, z)
      | some v =>
        let (_, z) ← z.push v false
        transfer k a z

/-- `while (k-- > 0 && in.pop(v)) out.push(v);`, without looking for a free place. -/
def hasty : Nat → Ring α → Ring α → Res (Ring α × Ring α)
  | 0, a, z => .ok (a, z)
  | k + 1, a, z => do
    let (v, a) ← a.pop
    match v with
    | none => pure (a, z)
    | some v =>
      let (_, z) ← z.push v false
      hasty k a z

/-- What the program does at a time: put a block into the first buffer, move at most `k` elements,
or take at most `k` elements out of the second buffer. -/
inductive Act (α : Type) where
  | put (vs : List α)
  | move (k : Nat)
  | get (k : Nat)

/-- A series of these.  Reports the number of elements that were taken of each block, and the
elements that came out. -/
def run : List (Act α) → Ring α × Ring α → Res (List Nat × List α × Ring α × Ring α)
  | [], (a, z) => .ok ([], [], a, z)
  | .put vs :: rest, (a, z) => do
    let (n, a) ← a.pushMany vs false
    let (ns, out, s) ← run rest (a, z)
    pure (n :: ns, out, s)
  | .move k :: rest, (a, z) => do
    run rest (← transfer k a z)
  | .get k :: rest, (a, z) => do
    let (got, z) ← drain k z
    let (ns, out, s) ← run rest (a, z)
    pure (ns, got ++ out, s)

/-! ## Specification -/

/-- The blocks of a series. -/
def blocks : List (Act α) → List (List α)
  | [] => []
  | .put vs :: rest => vs :: blocks rest
  | _ :: rest => blocks rest

/-- The first `ns[i]` elements of each block. -/
def taken : List Nat → List (List α) → List α
  | n :: ns, vs :: bs => vs.take n ++ taken ns bs
  | _, _ => []

/-! ## Proof -/

theorem transfer_rep {m n : Nat} : ∀ (k : Nat) {a z : Ring α} {p q : List α}, Rep m a p → Rep n z q →
    ∃ a' z', transfer k a z = .ok (a', z') ∧ Rep m a' (p.drop (min k (n - q.length))) ∧
      Rep n z' (q ++ p.take (min k (n - q.length)))
  | 0, a, z, p, q, ha, hz => ⟨a, z, rfl, by simpa using ha, by simpa using hz⟩
  | k + 1, a, z, p, q, ha, hz => by
    by_cases hf : q.length = n
    · refine ⟨a, z, ?_, by simpa [hf] using ha, by simpa [hf] using hz⟩
      simp [transfer, full, hz.fullIff, hf]
    · have hlt : q.length < n := by have := hz.qle; omega
      have hfull : z.full = false := by simp [full, hz.fullIff, hf]
      match p, ha with
      | [], ha =>
        exact ⟨a, z, by simp [transfer, hfull, ha.pop_none], by simpa using ha, by simpa using hz⟩
      | v :: p, ha =>
        obtain ⟨a₁, e₁, ha₁, -⟩ := ha.pop_some
        obtain ⟨z₁, e₂, hz₁, -⟩ := hz.push_space v false hlt
        obtain ⟨a', z', e, ha', hz'⟩ := transfer_rep k ha₁ hz₁
        have hmin : min (k + 1) (n - q.length) = min k (n - (q ++ [v]).length) + 1 := by
          simp only [List.length_append, List.length_cons, List.length_nil]; omega
        refine ⟨a', z', by simp [transfer, hfull, e₁, e₂, e], ?_, ?_⟩
        · rw [hmin]; simpa using ha'
        · rw [hmin]; simpa using hz'

theorem run_rep {m n : Nat} : ∀ (acts : List (Act α)) {a z : Ring α} {p q : List α},
    Rep m a p → Rep n z q →
    ∃ ns out a' z' p' q', run acts (a, z) = .ok (ns, out, a', z') ∧ Rep m a' p' ∧ Rep n z' q' ∧
      ns.length = (blocks acts).length ∧ out ++ q' ++ p' = q ++ p ++ taken ns (blocks acts)
  | [], a, z, p, q, ha, hz => ⟨[], [], a, z, p, q, rfl, ha, hz, rfl, by simp [blocks, taken]⟩
  | .put vs :: rest, a, z, p, q, ha, hz => by
    obtain ⟨a₁, e₁, ha₁, -⟩ := Rep.pushMany_false vs ha
    obtain ⟨ns, out, a', z', p', q', e, ha', hz', hl, ho⟩ := run_rep rest ha₁ hz
    refine ⟨min vs.length (m - p.length) :: ns, out, a', z', p', q', by simp only [run, e₁, e, res_bind_ok, res_pure], ha', hz',
      by simp [blocks, hl], ?_⟩
    rw [ho]
    simp only [blocks, taken, List.append_assoc]
    congr 3
    rcases Nat.le_total vs.length (m - p.length) with h | h
    · rw [Nat.min_eq_left h, List.take_of_length_le h, List.take_of_length_le (Nat.le_refl _)]
    · rw [Nat.min_eq_right h]
  | .move k :: rest, a, z, p, q, ha, hz => by
    obtain ⟨a₁, z₁, e₁, ha₁, hz₁⟩ := transfer_rep k ha hz
    obtain ⟨ns, out, a', z', p', q', e, ha', hz', hl, ho⟩ := run_rep rest ha₁ hz₁
    refine ⟨ns, out, a', z', p', q', by simp only [run, e₁, e, res_bind_ok], ha', hz', hl, ?_⟩
    rw [ho, List.append_assoc q, List.take_append_drop]
    rfl
  | .get k :: rest, a, z, p, q, ha, hz => by
    obtain ⟨z₁, e₁, hz₁⟩ := drain_rep k hz
    obtain ⟨ns, out, a', z', p', q', e, ha', hz', hl, ho⟩ := run_rep rest ha hz₁
    refine ⟨ns, q.take k ++ out, a', z', p', q', by simp only [run, e₁, e, res_bind_ok, res_pure],
      ha', hz', hl, ?_⟩
    rw [List.append_assoc, List.append_assoc, ← List.append_assoc out, ho, ← List.append_assoc,
      ← List.append_assoc, List.take_append_drop]
    rfl

end RingChain

open RingChain Ring

variable {α : Type}

/-! ## The property -/

/-- **C213.**  Whatever the program puts in, moves and takes out, and whenever it does so: the
elements that came out, those in the second buffer and those in the first are together, in this
order, exactly the elements that the first buffer accepted. -/
theorem C213_chain {m n : Nat} (hm : 0 < m) (hn : 0 < n) (b : Build) (init : α) (acts : List (Act α)) :
    ∃ a z ns out a' z' p q, Ring.create b m init = .ok a ∧ Ring.create b n init = .ok z ∧
      run acts (a, z) = .ok (ns, out, a', z') ∧ a'.Holds p ∧ z'.Holds q ∧
      ns.length = (blocks acts).length ∧ out ++ q ++ p = taken ns (blocks acts) := by
  obtain ⟨a, e₁, ha, -⟩ := Rep.create hm b init
  obtain ⟨z, e₂, hz, -⟩ := Rep.create hn b init
  obtain ⟨ns, out, a', z', p, q, e, ha', hz', hl, ho⟩ := run_rep acts ha hz
  exact ⟨a, z, ns, out, a', z', p, q, e₁, e₂, e, ha'.holds, hz'.holds, hl, by simpa using ho⟩

/-- **C213** from any state: the same for buffers that were used before and still hold elements. -/
theorem C213_chain_used {m n : Nat} {a z : Ring α} (ha : Ring.Reachable m a) (hz : Ring.Reachable n z)
    (hm : 0 < m) (hn : 0 < n) {p₀ q₀ : List α} (hp : a.Holds p₀) (hq : z.Holds q₀)
    (acts : List (Act α)) :
    ∃ ns out a' z' p q, run acts (a, z) = .ok (ns, out, a', z') ∧ a'.Holds p ∧ z'.Holds q ∧
      ns.length = (blocks acts).length ∧ out ++ q ++ p = q₀ ++ p₀ ++ taken ns (blocks acts) := by
  obtain ⟨p', ha'⟩ := ha.rep hm
  obtain ⟨q', hz'⟩ := hz.rep hn
  cases Holds.unique hp ha'.holds
  cases Holds.unique hq hz'.holds
  obtain ⟨ns, out, a', z', p, q, e, h₁, h₂, hl, ho⟩ := run_rep acts ha' hz'
  exact ⟨ns, out, a', z', p, q, e, h₁.holds, h₂.holds, hl, ho⟩

/-- **C213**, a single transfer: it moves as many of the oldest elements as were asked for, are there
and find a place. -/
theorem C213_transfer {m n : Nat} {a z : Ring α} (ha : Ring.Reachable m a) (hz : Ring.Reachable n z)
    (hm : 0 < m) (hn : 0 < n) {p q : List α} (hp : a.Holds p) (hq : z.Holds q) (k : Nat) :
    ∃ a' z', transfer k a z = .ok (a', z') ∧ a'.Holds (p.drop (min k (n - q.length))) ∧
      z'.Holds (q ++ p.take (min k (n - q.length))) := by
  obtain ⟨p', ha'⟩ := ha.rep hm
  obtain ⟨q', hz'⟩ := hz.rep hn
  cases Holds.unique hp ha'.holds
  cases Holds.unique hq hz'.holds
  obtain ⟨a₁, z₁, e, h₁, h₂⟩ := transfer_rep k ha' hz'
  exact ⟨a₁, z₁, e, h₁.holds, h₂.holds⟩

/-- **C213**, the look at `full()` is needed: without it, the next element is lost whenever the second
buffer is full. -/
theorem C213_hasty_counterexample {m n : Nat} {a z : Ring α} (ha : Ring.Reachable m a)
    (hz : Ring.Reachable n z) (hm : 0 < m) (hn : 0 < n) {v : α} {p q : List α} (hp : a.Holds (v :: p))
    (hq : z.Holds q) (hf : q.length = n) :
    ∃ a', hasty 1 a z = .ok (a', z) ∧ a'.Holds p := by
  obtain ⟨p', ha'⟩ := ha.rep hm
  obtain ⟨q', hz'⟩ := hz.rep hn
  cases Holds.unique hp ha'.holds
  cases Holds.unique hq hz'.holds
  obtain ⟨a₁, e₁, h₁, -⟩ := ha'.pop_some
  exact ⟨a₁, by simp [hasty, e₁, hz'.push_reject v hf], h₁.holds⟩

/-- A series in which both buffers fill up. -/
example : (do
    let a ← Ring.create .release 3 0
    let z ← Ring.create .release 2 0
    let (ns, out, a, z) ← run [.put [1, 2, 3, 4], .move 9, .put [5, 6], .get 1, .move 1, .get 9] (a, z)
    pure (ns, out, a.usedSpace, z.usedSpace) : Res _) = .ok ([3, 2], [1, 2, 3], 2, 0) := by rfl

end Spine
