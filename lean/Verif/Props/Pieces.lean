import Verif.Props.RingBuffer
import Verif.Model.Stream
import Verif.Core.Bind
/-!
# C202: how data is cut into pieces does not matter
-/

namespace Spine

/-- Specification: hand over several blocks one after the other, and count what was accepted. -/
def inPieces {α σ : Type} (f : σ → List α → Res (Nat × σ)) (s : σ) : List (List α) → Res (Nat × σ)
  | [] => .ok (0, s)
  | vs :: rest => do
    let (k, s) ← f s vs
    let (j, s) ← inPieces f s rest
    return (k + j, s)

/-- It is enough to cut once. -/
theorem inPieces_eq {α σ : Type} {f : σ → List α → Res (Nat × σ)} (h0 : ∀ s, f s [] = .ok (0, s))
    (h : ∀ s vs ws, f s (vs ++ ws) = (do let (k, s) ← f s vs; let (j, s) ← f s ws; return (k + j, s))) (pieces : List (List α)) : ∀ s, inPieces f s pieces = f s pieces.flatten := by
  induction pieces with
  | nil => intro s; rw [List.flatten_nil, h0]; rfl
  | cons vs rest ih =>
    intro s
    rw [List.flatten_cons, h]
    simp only [inPieces, ih]

section Ring
variable {α : Type}

theorem push_refused {r r' : Ring α} {v : α} {o : Bool} (h : r.push v o = .ok (false, r')) : r' = r ∧ ∀ w, r.push w o = .ok (false, r) := by
  unfold Ring.push at h ⊢
  by_cases hc : (r.isFull && !o) = true
  · rw [if_pos hc] at h
    obtain ⟨-, rfl⟩ := Prod.mk.inj (Except.ok.inj h)
    exact ⟨rfl, fun w => by rw [if_pos hc]; rfl⟩
  · rw [if_neg hc] at h
    obtain ⟨_, -, h⟩ := res_bind h
    obtain ⟨_, -, h⟩ := res_bind h
    split at h
    · obtain ⟨h, -⟩ := Prod.mk.inj (Except.ok.inj h); cases h
    · split at h
      · obtain ⟨_, -, h⟩ := res_bind h
        obtain ⟨h, -⟩ := Prod.mk.inj (Except.ok.inj h); cases h
      · obtain ⟨h, -⟩ := Prod.mk.inj (Except.ok.inj h); cases h

theorem pushMany_append (o : Bool) (vs : List α) : ∀ (r : Ring α) (ws : List α),
    r.pushMany (vs ++ ws) o = (do let (k, r) ← r.pushMany vs o; let (j, r) ← r.pushMany ws o; return (k + j, r)) := by
  induction vs with
  | nil =>
    intro r ws
    simp only [List.nil_append, Ring.pushMany, res_bind_ok, Nat.zero_add]
    cases r.pushMany ws o <;> rfl
  | cons v vs ih =>
    intro r ws
    simp only [List.cons_append, Ring.pushMany]
    cases hp : r.push v o with
    | error e => rfl
    | ok x =>
      obtain ⟨done, r1⟩ := x
      cases done with
      | false =>
        obtain ⟨rfl, hr⟩ := push_refused hp
        have : r1.pushMany ws o = .ok (0, r1) := by
          cases ws with
          | nil => rfl
          | cons w ws => simp only [Ring.pushMany, hr, res_bind_ok]; rfl
        simp only [res_bind_ok, Bool.not_false, if_true, res_pure, this]
      | true =>
        simp only [res_bind_ok, Bool.not_true, Bool.false_eq_true, if_false, ih]
        cases r1.pushMany vs o with
        | error e => rfl
        | ok y =>
          obtain ⟨k, r2⟩ := y
          simp only [res_bind_ok, res_pure]
          cases r2.pushMany ws o with
          | error e => rfl
          | ok z => simp only [res_bind_ok, Nat.add_right_comm]

/-- **C202.** A block pushed into a ring buffer in pieces, with or without overwriting: the same elements are accepted, and the buffer is the same in the end, whatever its state. -/
theorem C202_push (o : Bool) (r : Ring α) (pieces : List (List α)) : inPieces (fun r vs => r.pushMany vs o) r pieces = r.pushMany pieces.flatten o :=
  inPieces_eq (f := fun (r : Ring α) vs => r.pushMany vs o) (fun _ => rfl) (fun r vs ws => pushMany_append o vs r ws) pieces r

/-- Specification: fill the blocks one after the other; `none` if a block was not filled. -/
def popPieces (r : Ring α) : List (List α) → Res (Option (List α) × Ring α)
  | [] => .ok (some [], r)
  | dst :: rest => do
    let ((k, xs), r) ← r.popMany dst dst.length
    let (ys, r) ← popPieces r rest
    return (if k = dst.length then ys.map (xs ++ ·) else none, r)

theorem popPieces_rep {n : Nat} (dsts : List (List α)) : ∀ {r : Ring α} {q : List α}, Ring.Rep n r q → dsts.flatten.length ≤ q.length →
    ∃ r', popPieces r dsts = .ok (some (q.take dsts.flatten.length), r') ∧ Ring.Rep n r' (q.drop dsts.flatten.length) := by
  induction dsts with
  | nil => intro r q h _; exact ⟨r, by simp [popPieces], by simpa using h⟩
  | cons d dsts ih =>
    intro r q h hl
    rw [List.flatten_cons, List.length_append] at hl ⊢
    obtain ⟨r1, e1, h1⟩ := h.popMany_enough d d.length (by omega) (Nat.le_refl _)
    obtain ⟨r2, e2, h2⟩ := ih h1 (by rw [List.length_drop]; omega)
    refine ⟨r2, ?_, by rw [List.drop_drop] at h2; exact h2⟩
    simp only [popPieces, e1, e2, res_bind_ok, res_pure, if_true, List.drop_length, List.append_nil, Option.map_some]
    rw [List.take_add]

/-- **C202**, the part that holds: elements popped in pieces are those popped at once, in the same order, and the same elements remain. Missing: more elements than the buffer holds,
see `C202_pop_counterexample`. -/
theorem C202_pop_partial (n : Nat) (hn : 0 < n) (r : Ring α) (h : Ring.Reachable n r) (q : List α) (hq : r.Holds q) (dsts : List (List α)) (hl : dsts.flatten.length ≤ q.length) :
    ∃ xs r1 r2 q', popPieces r dsts = .ok (some xs, r1) ∧ r.popMany dsts.flatten dsts.flatten.length = .ok ((xs.length, xs), r2) ∧ xs.length = dsts.flatten.length ∧ q = xs ++ q' ∧
      r1.Holds q' ∧ r2.Holds q' := by
  obtain ⟨q', hq'⟩ := h.rep hn
  obtain rfl := hq'.holds.unique hq
  obtain ⟨r1, e1, h1⟩ := popPieces_rep dsts hq' hl
  obtain ⟨r2, e2, h2⟩ := hq'.popMany_enough dsts.flatten dsts.flatten.length hl (Nat.le_refl _)
  have ht : (q'.take dsts.flatten.length).length = dsts.flatten.length := by rw [List.length_take]; omega
  exact ⟨_, r1, r2, _, e1, by rw [e2, ht, List.drop_length, List.append_nil], ht, (List.take_append_drop _ _).symm, h1.holds, h2.holds⟩

/-- **C202** does not hold for more elements than the buffer holds: at once none is popped, in pieces some are. -/
theorem C202_pop_counterexample : ∃ r r1 r2 : Ring Nat, (do let r ← Ring.create .debug 3 0; let (_, r) ← r.pushMany [1, 2] false; return r) = .ok r ∧
    r.popMany [0, 0, 0] 3 = .ok ((0, [0, 0, 0]), r1) ∧ r1 = r ∧ r.popMany [0] 1 = .ok ((1, [1]), r2) :=
  ⟨_, _, _, rfl, rfl, rfl, rfl⟩

/-- Specification: make several calls that return a number, and add the numbers. -/
def addUp {σ : Type} (f : σ → Nat → Res (Nat × σ)) (s : σ) : List Nat → Res (Nat × σ)
  | [] => .ok (0, s)
  | k :: ks => do
    let (a, s) ← f s k
    let (c, s) ← addUp f s ks
    return (a + c, s)

theorem addUp_rep {n : Nat} {f : Ring α → Nat → Res (Nat × Ring α)} {g : List α → Nat → List α} (hg : ∀ q k, (g q k).length = q.length - k) (hg' : ∀ q j k, g (g q j) k = g q (j + k))
    (h0 : ∀ q, g q 0 = q) (hf : ∀ {r : Ring α} {q : List α}, Ring.Rep n r q → ∀ k, 0 < k → ∃ r', f r k = .ok (min k q.length, r') ∧ Ring.Rep n r' (g q k)) (ks : List Nat) :
    (∀ k ∈ ks, 0 < k) → ∀ {r : Ring α} {q : List α}, Ring.Rep n r q → ∃ r', addUp f r ks = .ok (min ks.sum q.length, r') ∧ Ring.Rep n r' (g q ks.sum) := by
  induction ks with
  | nil => intro _ r q h; exact ⟨r, by simp [addUp], by rw [List.sum_nil, h0]; exact h⟩
  | cons k ks ih =>
    intro hk r q h
    obtain ⟨r1, e1, h1⟩ := hf h k (hk k (by simp))
    obtain ⟨r2, e2, h2⟩ := ih (fun k hk' => hk k (by simp [hk'])) h1
    refine ⟨r2, ?_, by rw [hg'] at h2; rw [List.sum_cons]; exact h2⟩
    simp only [addUp, e1, e2, res_bind_ok, res_pure, hg, List.sum_cons]
    congr 2
    omega

/-- **C202**, the part that holds: elements dropped in pieces, from either end, are as many as when dropped at once, and the same elements remain. Missing: pieces of no elements,
which empty a full buffer (`C04_drop_zero_on_full_counterexample`). -/
theorem C202_drop_partial (n : Nat) (hn : 0 < n) (r : Ring α) (h : Ring.Reachable n r) (q : List α) (hq : r.Holds q) (ks : List Nat) (hk : ∀ k ∈ ks, 0 < k) (hne : ks ≠ []) :
    (∃ k r1 r2 q', addUp Ring.dropFirst r ks = .ok (k, r1) ∧ r.dropFirst ks.sum = .ok (k, r2) ∧ r1.Holds q' ∧ r2.Holds q') ∧
    (∃ k r1 r2 q', addUp Ring.dropLast r ks = .ok (k, r1) ∧ r.dropLast ks.sum = .ok (k, r2) ∧ r1.Holds q' ∧ r2.Holds q') := by
  obtain ⟨q', hq'⟩ := h.rep hn
  obtain rfl := hq'.holds.unique hq
  have hs : 0 < ks.sum := by
    cases ks with
    | nil => exact absurd rfl hne
    | cons k ks => have := hk k (by simp); rw [List.sum_cons]; omega
  constructor
  · obtain ⟨r1, e1, h1⟩ := addUp_rep (f := Ring.dropFirst) (g := fun q k => q.drop k) (by simp) (by intro q j k; rw [List.drop_drop]) (by simp)
      (fun h k hk => h.dropFirst k (.inl hk)) ks hk hq'
    obtain ⟨r2, e2, h2⟩ := hq'.dropFirst ks.sum (.inl hs)
    exact ⟨_, r1, r2, _, e1, e2, h1.holds, h2.holds⟩
  · obtain ⟨r1, e1, h1⟩ := addUp_rep (f := Ring.dropLast) (g := fun q k => q.take (q.length - k)) (by simp)
      (by intro q j k; rw [List.take_take, List.length_take]; congr 1; omega) (by simp)
      (fun h k hk => by obtain ⟨r', a, c, -⟩ := h.dropLast k (.inl hk); exact ⟨r', a, c⟩) ks hk hq'
    obtain ⟨r2, e2, h2, -⟩ := hq'.dropLast ks.sum (.inl hs)
    exact ⟨_, r1, r2, _, e1, e2, h1.holds, h2.holds⟩

/-- **C202.** Pushing the elements of a block one by one, up to the first that is refused, is pushing the block. -/
theorem C202_single (o : Bool) (r : Ring α) (vs : List α) :
    inPieces (fun r vs => r.pushMany vs o) r (vs.map fun v => [v]) = r.pushMany vs o ∧
    ∀ v, r.pushMany [v] o = (r.push v o).map fun x => (if x.1 then 1 else 0, x.2) := by
  constructor
  · rw [C202_push]
    congr 1
    induction vs with
    | nil => rfl
    | cons v vs ih => rw [List.map_cons, List.flatten_cons, ih]; rfl
  · intro v
    simp only [Ring.pushMany]
    cases r.push v o with
    | error e => rfl
    | ok x =>
      obtain ⟨d, r1⟩ := x
      cases d <;> rfl

end Ring

/-! ## Line buffers, streams -/

/-- An object that holds a ring buffer and writes to it. -/
theorem lens_pieces {σ α : Type} {f : σ → List α → Res (Nat × σ)} (get : σ → Ring α) (set : σ → Ring α → σ) (h1 : ∀ s r, get (set s r) = r) (h2 : ∀ s, set s (get s) = s)
    (h3 : ∀ s r r', set (set s r) r' = set s r') (o : Bool) (hf : ∀ s vs, f s vs = (do let (n, r) ← (get s).pushMany vs o; return (n, set s r))) (s : σ) (pieces : List (List α)) :
    inPieces f s pieces = f s pieces.flatten := by
  refine inPieces_eq (f := f) (fun s => ?_) (fun s vs ws => ?_) pieces s
  · rw [hf]; simp only [Ring.pushMany, res_bind_ok, res_pure, h2]
  · simp only [hf, pushMany_append]
    cases (get s).pushMany vs o with
    | error e => rfl
    | ok x =>
      obtain ⟨k, r1⟩ := x
      simp only [res_bind_ok, res_pure, h1]
      cases r1.pushMany ws o with
      | error e => rfl
      | ok y => simp only [res_bind_ok, h3]

/-- **C202.** The same for a text pushed into a line buffer, so that the lines found in it are the same, for bytes written to a mock stream, swapped or not, and for bytes written to the
output buffer of a stream, with or without overwriting. -/
theorem C202_streams {σ : Type} (l : LineBuf) (m : Mock) (s : BufStream σ) (o : Bool) (pieces : List (List Byte)) :
    inPieces LineBuf.pushStr l pieces = l.pushStr pieces.flatten ∧ inPieces Mock.writeMany m pieces = m.writeMany pieces.flatten ∧
    inPieces (fun s vs => BufStream.bufferedWriteMany s vs o) s pieces = s.bufferedWriteMany pieces.flatten o := by
  refine ⟨?_, ?_, ?_⟩
  · exact lens_pieces (fun l : LineBuf => l.ring) (fun l ring => { l with ring }) (fun _ _ => rfl) (fun _ => rfl) (fun _ _ _ => rfl) false (fun _ _ => rfl) l pieces
  · refine lens_pieces Mock.activeOut Mock.setOut ?_ ?_ ?_ false (fun _ _ => rfl) m pieces
    · rintro ⟨i, o, w⟩ r; cases w <;> rfl
    · rintro ⟨i, o, w⟩; cases w <;> rfl
    · rintro ⟨i, o, w⟩ r r'; cases w <;> rfl
  · exact lens_pieces (fun s : BufStream σ => s.output.ring) (fun s ring => { s with output := { s.output with ring } }) (fun _ _ => rfl) (fun _ => rfl) (fun _ _ _ => rfl) o
      (fun _ _ => rfl) s pieces

/-! ## Concrete cases -/

/-- Five elements in three pieces into a buffer of capacity 4: the last piece is accepted in part. -/
example : (do
    let r ← Ring.create .debug 4 (0 : Nat)
    let (k, r) ← inPieces (fun r vs => r.pushMany vs false) r [[1, 2], [], [3, 4, 5]]
    let ((j, xs), r) ← r.popMany [0, 0, 0] 3
    return (k, j, xs, r.usedSpace) : Res (Nat × Nat × List Nat × Nat)) = .ok (4, 3, [1, 2, 3], 1) := rfl

/-- Popped in pieces of one and two. -/
example : (do
    let r ← Ring.create .debug 4 (0 : Nat)
    let (_, r) ← r.pushMany [1, 2, 3, 4] false
    let (xs, r) ← popPieces r [[0], [0, 0]]
    return (xs, r.usedSpace) : Res (Option (List Nat) × Nat)) = .ok (some [1, 2, 3], 1) := rfl

/-- Dropped in pieces of one and five. -/
example : (do
    let r ← Ring.create .debug 4 (0 : Nat)
    let (_, r) ← r.pushMany [1, 2, 3, 4] false
    let (k, r) ← addUp Ring.dropFirst r [1, 5]
    return (k, r.usedSpace) : Res (Nat × Nat)) = .ok (4, 0) := rfl

end Spine
