import Verif.Props.RingBuffer
import Verif.Props.Vector
import Verif.Props.Filter
import Verif.Props.Repeated
/-!
# C200: undoing a call restores what was before
-/

namespace Spine

/-! ## Ring buffer -/

section Ring
variable {α : Type}

/-- **C200**, the part that holds: after a push of several elements, without overwriting, dropping as many of the newest elements as were accepted restores the contents, whatever
the history of the buffer. Missing: a push that was refused entirely, see `C200_ring_counterexample`. -/
theorem C200_ring_partial (n : Nat) (hn : 0 < n) (r : Ring α) (h : Ring.Reachable n r) (q : List α) (hq : r.Holds q) (vs : List α) (hv : q.length < n) :
    ∃ k r1 r2, r.pushMany vs false = .ok (k, r1) ∧ r1.dropLast k = .ok (k, r2) ∧ r2.Holds q := by
  obtain ⟨q', hq'⟩ := h.rep hn
  obtain rfl := hq'.holds.unique hq
  obtain ⟨r1, e1, h1, -⟩ := Ring.Rep.pushMany_false vs hq'
  have hl : (q' ++ vs.take (n - q'.length)).length = q'.length + min vs.length (n - q'.length) := by simp; omega
  obtain ⟨r2, e2, h2, -⟩ := h1.dropLast (min vs.length (n - q'.length)) (by rw [hl]; omega)
  refine ⟨_, r1, r2, e1, ?_, ?_⟩
  · rw [e2, hl, Nat.min_eq_left (by omega)]
  · rw [hl, Nat.add_sub_cancel, List.take_left] at h2
    exact h2.holds

/-- **C200.** A push that overwrites nothing, followed by a drop of the newest element. -/
theorem C200_ring_single (n : Nat) (hn : 0 < n) (r : Ring α) (h : Ring.Reachable n r) (q : List α) (hq : r.Holds q) (v : α) (o : Bool) (hv : q.length < n) :
    ∃ r1 r2, r.push v o = .ok (true, r1) ∧ r1.dropLast 1 = .ok (1, r2) ∧ r2.Holds q := by
  obtain ⟨q', hq'⟩ := h.rep hn
  obtain rfl := hq'.holds.unique hq
  obtain ⟨r1, e1, h1, -⟩ := hq'.push_space v o hv
  obtain ⟨r2, e2, h2, -⟩ := h1.dropLast 1 (.inl Nat.one_pos)
  refine ⟨r1, r2, e1, ?_, ?_⟩
  · rw [e2]; simp
  · simpa using h2.holds

/-- **C200** does not hold for a push that a full buffer refuses: undoing it by dropping the zero elements that were accepted empties the buffer. -/
theorem C200_ring_counterexample (n : Nat) (hn : 0 < n) (r : Ring α) (h : Ring.Reachable n r) (q : List α) (hq : r.Holds q) (hf : q.length = n) (vs : List α) :
    ∃ r1 r2, r.pushMany vs false = .ok (0, r1) ∧ r1.dropLast 0 = .ok (0, r2) ∧ r2.Holds [] := by
  obtain ⟨q', hq'⟩ := h.rep hn
  obtain rfl := hq'.holds.unique hq
  obtain ⟨r1, e1, h1, -⟩ := Ring.Rep.pushMany_false vs hq'
  rw [hf, Nat.sub_self, Nat.min_zero] at e1
  rw [hf, Nat.sub_self, List.take_zero, List.append_nil] at h1
  obtain ⟨r2, e2, h2⟩ := h1.dropLast_zero_full hf
  exact ⟨r1, r2, e1, e2, h2.holds⟩

end Ring

/-! ## Vector -/

section Vector
variable {α : Type} {b : Build} {e : Elem α}

theorem vector_undo {v : Vec α} (h : Vec.Reachable b e v) {q : List α} (hq : v.Holds q) {op op' : Vec.Op α} {o o' : Vec.Out α} {q1 : List α}
    (h1 : Seq.step v.maxSize q op = some (o, q1)) (h2 : Seq.step v.maxSize q1 op' = some (o', q)) (s1 : Vec.Sound v q op)
    (s2 : ∀ w : Vec α, w.maxSize = v.maxSize → (v.head = 0 → Vec.KeepsFront op → w.head = 0) → Vec.Sound w q1 op') :
    ∃ v1 v2, v.step b e op = .ok (o, v1) ∧ v1.step b e op' = .ok (o', v2) ∧ v2.Holds q := by
  obtain ⟨q', hq'⟩ := h.rep
  obtain rfl := hq'.holds.unique hq
  obtain ⟨v1, e1, r1, k1⟩ := hq'.step (b := b) (e := e) h1 s1
  obtain ⟨v2, e2, r2, -⟩ := r1.step (b := b) (e := e) h2 (s2 v1 r1.maxSize k1)
  exact ⟨v1, v2, e1, e2, r2.holds⟩

/-- **C200.** An element put in front of a vector comes back from the next `pop_front`, and the vector holds what it held. -/
theorem C200_vector_front {v : Vec α} (h : Vec.Reachable b e v) {q : List α} (hq : v.Holds q) (hf : q.length < v.maxSize) (x : α) (c : Bool) :
    ∃ v1 v2, v.step b e (.pushFront x) = .ok (.unit, v1) ∧ v1.step b e (.popFront c) = .ok (.val x, v2) ∧ v2.Holds q :=
  vector_undo (q1 := x :: q) h hq (by simp [Seq.step, hf]) rfl trivial fun _ _ _ => trivial

/-- An empty window is at the first slot. -/
def Vec.Home (v : Vec α) : Prop := v.tail = v.head → v.head = 0

theorem assign_window {v w : Vec α} {i : Nat} {x : α} (h : v.assign i x = .ok w) : w.head = v.head ∧ w.tail = v.tail := by
  unfold Vec.assign at h
  obtain ⟨_, -, h⟩ := res_bind h
  obtain rfl := Except.ok.inj h
  exact ⟨rfl, rfl⟩

theorem take_window {v : Vec α} {i : Nat} {r : α × Vec α} (h : v.take e i = .ok r) : r.2.head = v.head ∧ r.2.tail = v.tail := by
  unfold Vec.take at h
  obtain ⟨_, -, h⟩ := res_bind h
  obtain rfl := Except.ok.inj h
  exact ⟨rfl, rfl⟩

theorem rvalue_window {v : Vec α} {i : Nat} {c : Bool} {r : α × Vec α} (h : v.rvalue e i c = .ok r) : r.2.head = v.head ∧ r.2.tail = v.tail := by
  unfold Vec.rvalue at h
  cases c with
  | true => exact take_window h
  | false =>
    obtain ⟨_, -, h⟩ := res_bind h
    obtain rfl := Except.ok.inj h
    exact ⟨rfl, rfl⟩

theorem compact_window {v w : Vec α} (h : v.compact b e = .ok w) (hle : v.head ≤ v.tail) : w.head ≤ w.tail := by
  unfold Vec.compact at h
  split at h
  · unfold Vec.rearrange at h
    obtain ⟨_, -, h⟩ := res_bind h
    obtain ⟨_, -, h⟩ := res_bind h
    obtain ⟨_, -, h⟩ := res_bind h
    obtain ⟨_, -, h⟩ := res_bind h
    obtain ⟨_, -, h⟩ := res_bind h
    obtain rfl := Except.ok.inj h
    exact Nat.zero_le _
  · obtain rfl := Except.ok.inj h
    exact hle

theorem pushBack_home {v w : Vec α} {x : α} (h : v.pushBack b e x = .ok w) (hle : v.head ≤ v.tail) (hh : ∀ u, v.compact b e = .ok u → ¬ u.tail < u.maxSize → u.Home) : w.Home := by
  unfold Vec.pushBack at h
  obtain ⟨u, e1, h⟩ := res_bind h
  have hu := compact_window e1 hle
  obtain ⟨_, -, h⟩ := res_bind h
  split at h
  · obtain ⟨y, e2, h⟩ := res_bind h
    obtain rfl := Except.ok.inj h
    have := assign_window e2
    intro ht
    simp only at ht ⊢
    omega
  · rename_i hn
    obtain rfl := Except.ok.inj h
    exact hh _ e1 hn

theorem compact_home {v u : Vec α} (hv : v.Home) (h : v.compact b e = .ok u) : u.Home := by
  unfold Vec.compact at h
  split at h
  · unfold Vec.rearrange at h
    obtain ⟨_, -, h⟩ := res_bind h
    obtain ⟨_, -, h⟩ := res_bind h
    obtain ⟨_, -, h⟩ := res_bind h
    obtain ⟨_, -, h⟩ := res_bind h
    obtain ⟨_, -, h⟩ := res_bind h
    obtain rfl := Except.ok.inj h
    exact fun _ => rfl
  · obtain rfl := Except.ok.inj h
    exact hv

theorem pushFront_home {v w : Vec α} {x : α} (h : v.pushFront b e x = .ok w) (hle : v.head ≤ v.tail) : w.Home := by
  unfold Vec.pushFront at h
  obtain ⟨_, -, h⟩ := res_bind h
  split at h
  · have := assign_window h
    simp only at this
    intro ht; omega
  · obtain ⟨_, -, h⟩ := res_bind h
    obtain ⟨_, -, h⟩ := res_bind h
    obtain ⟨y, e2, h⟩ := res_bind h
    obtain rfl := Except.ok.inj h
    have := assign_window e2
    intro ht
    simp only at ht this ⊢
    omega

theorem popFront_home {v : Vec α} {c : Bool} {r : α × Vec α} (h : v.popFront b e c = .ok r) : r.2.Home := by
  unfold Vec.popFront at h
  obtain ⟨_, -, h⟩ := res_bind h
  have := rvalue_window h
  split at this
  · intro _; rw [this.1]
  · intro ht; simp only at this; rw [this.1, this.2] at ht; rename_i hn; exact absurd ht hn

theorem popBack_home {v : Vec α} (hv : v.Home) {c : Bool} {r : α × Vec α} (h : v.popBack b e c = .ok r) : r.2.Home := by
  unfold Vec.popBack at h
  obtain ⟨_, -, h⟩ := res_bind h
  have := rvalue_window h
  split at this
  · split at this
    · intro _; rw [this.1]
    · intro ht; simp only at this; rw [this.1, this.2] at ht; rename_i hn; exact absurd ht hn
  · intro ht; rw [this.1, this.2] at ht; rw [this.1]; exact hv ht

theorem step_home {v w : Vec α} (hv : v.Home) (hle : v.head ≤ v.tail) {op : Vec.Op α} {o : Vec.Out α} (h : v.step b e op = .ok (o, w)) : w.Home := by
  cases op with
  | pushBack x =>
    obtain ⟨u, e1, h⟩ := res_bind h
    obtain ⟨-, rfl⟩ := Prod.mk.inj (Except.ok.inj h)
    exact pushBack_home e1 hle fun _ h1 _ => compact_home hv h1
  | emplaceBack x =>
    obtain ⟨u, e1, h⟩ := res_bind h
    obtain ⟨-, rfl⟩ := Prod.mk.inj (Except.ok.inj h)
    exact pushBack_home (x := x) e1 hle fun _ h1 _ => compact_home hv h1
  | pushFront x =>
    obtain ⟨u, e1, h⟩ := res_bind h
    obtain ⟨-, rfl⟩ := Prod.mk.inj (Except.ok.inj h)
    exact pushFront_home e1 hle
  | emplaceFront x =>
    obtain ⟨u, e1, h⟩ := res_bind h
    obtain ⟨-, rfl⟩ := Prod.mk.inj (Except.ok.inj h)
    exact pushFront_home (b := .release) (e := e) (x := x) (by simpa only [Vec.pushFront, Vec.emplaceFront, spnAssert_release, res_bind_ok] using e1) hle
  | insert i x =>
    obtain ⟨u, e1, h⟩ := res_bind h
    obtain ⟨-, rfl⟩ := Prod.mk.inj (Except.ok.inj h)
    unfold Vec.insert at e1
    obtain ⟨_, -, e1⟩ := res_bind e1
    split at e1
    · exact pushFront_home e1 hle
    · split at e1
      · exact pushBack_home e1 hle fun _ h1 _ => compact_home hv h1
      · obtain ⟨y, e2, e1⟩ := res_bind e1
        obtain ⟨_, -, e1⟩ := res_bind e1
        obtain ⟨_, -, e1⟩ := res_bind e1
        obtain ⟨_, -, e1⟩ := res_bind e1
        have h1 := compact_window e2 hle
        have h2 := assign_window e1
        simp only at h2
        intro ht; omega
  | popFront c =>
    obtain ⟨u, e1, h⟩ := res_bind h
    obtain ⟨-, rfl⟩ := Prod.mk.inj (Except.ok.inj h)
    exact popFront_home e1
  | popBack c =>
    obtain ⟨u, e1, h⟩ := res_bind h
    obtain ⟨-, rfl⟩ := Prod.mk.inj (Except.ok.inj h)
    exact popBack_home hv e1
  | remove i =>
    obtain ⟨u, e1, h⟩ := res_bind h
    obtain ⟨-, rfl⟩ := Prod.mk.inj (Except.ok.inj h)
    unfold Vec.remove at e1
    split at e1
    · exact popFront_home e1
    · split at e1
      · exact popBack_home hv e1
      · split at e1
        · obtain ⟨_, -, e1⟩ := res_bind e1
          obtain ⟨_, -, e1⟩ := res_bind e1
          obtain rfl := Except.ok.inj e1
          simp only
          split
          · exact fun _ => rfl
          · rename_i hn; exact fun ht => absurd ht hn
        · obtain ⟨_, -, e1⟩ := res_bind e1
          obtain rfl := Except.ok.inj e1
          exact hv
  | clear =>
    obtain ⟨u, e1, h⟩ := res_bind h
    obtain ⟨-, rfl⟩ := Prod.mk.inj (Except.ok.inj h)
    have loop : ∀ (n : Nat) (v u : Vec α), v.Home → v.clearLoop b e n = .ok u → u.Home := by
      intro n
      induction n with
      | zero => intro v u hv h; obtain rfl := Except.ok.inj h; exact hv
      | succ n ih =>
        intro v u hv h
        unfold Vec.clearLoop at h
        obtain ⟨r, e2, h⟩ := res_bind h
        exact ih _ _ (popBack_home hv e2) h
    exact loop _ _ _ hv e1
  | fill x =>
    obtain ⟨u, e1, h⟩ := res_bind h
    obtain ⟨-, rfl⟩ := Prod.mk.inj (Except.ok.inj h)
    unfold Vec.fill at e1
    obtain ⟨_, -, e1⟩ := res_bind e1
    obtain rfl := Except.ok.inj e1
    exact fun _ => rfl
  | put i x =>
    obtain ⟨u, e1, h⟩ := res_bind h
    obtain ⟨-, rfl⟩ := Prod.mk.inj (Except.ok.inj h)
    unfold Vec.put at e1
    obtain ⟨_, -, e1⟩ := res_bind e1
    have := assign_window e1
    intro ht; rw [this.1, this.2] at ht; rw [this.1]; exact hv ht
  | get i => obtain ⟨_, -, h⟩ := res_bind h; obtain ⟨-, rfl⟩ := Prod.mk.inj (Except.ok.inj h); exact hv
  | peekFront => obtain ⟨_, -, h⟩ := res_bind h; obtain ⟨-, rfl⟩ := Prod.mk.inj (Except.ok.inj h); exact hv
  | peekBack => obtain ⟨_, -, h⟩ := res_bind h; obtain ⟨-, rfl⟩ := Prod.mk.inj (Except.ok.inj h); exact hv
  | back => obtain ⟨_, -, h⟩ := res_bind h; obtain ⟨-, rfl⟩ := Prod.mk.inj (Except.ok.inj h); exact hv
  | front => obtain ⟨_, -, h⟩ := res_bind h; obtain ⟨-, rfl⟩ := Prod.mk.inj (Except.ok.inj h); exact hv
  | size => obtain ⟨-, rfl⟩ := Prod.mk.inj (Except.ok.inj h); exact hv
  | empty => obtain ⟨-, rfl⟩ := Prod.mk.inj (Except.ok.inj h); exact hv
  | full => obtain ⟨-, rfl⟩ := Prod.mk.inj (Except.ok.inj h); exact hv
  | maxSize => obtain ⟨-, rfl⟩ := Prod.mk.inj (Except.ok.inj h); exact hv

theorem reachable_home {v : Vec α} (h : Vec.Reachable b e v) : v.Home := by
  induction h with
  | start h hn => exact fun _ => (h.rep hn).2
  | step h _ _ hr ih =>
    obtain ⟨q0, pre, post, log, h0, -⟩ := h.rep
    exact step_home ih (by rw [h0]; simp [Vec.mk']) hr

/-- **C200.** An element put at the back of a vector comes back from the next `pop_back`, and the vector holds what it held. This holds although `pop_back` itself returns a wrong
element in some states: a vector that is empty has its elements at the first slot. -/
theorem C200_vector_back {v : Vec α} (h : Vec.Reachable b e v) {q : List α} (hq : v.Holds q) (hf : q.length < v.maxSize) (x : α) (c : Bool) :
    ∃ v1 v2, v.step b e (.pushBack x) = .ok (.unit, v1) ∧ v1.step b e (.popBack c) = .ok (.val x, v2) ∧ v2.Holds q := by
  refine vector_undo (q1 := q ++ [x]) h hq (by simp [Seq.step, hf]) (by simp [Seq.step]) trivial fun w _ hk => ?_
  cases q with
  | nil =>
    refine .inl (hk (reachable_home h ?_) trivial)
    obtain ⟨pre, post, log, rfl, -⟩ := h.rep' hq
    rfl
  | cons y q => refine .inr ?_; simp

/-- **C200**, the part that holds: an element inserted at an index comes back from `remove` of that index, when the elements begin at the first slot and one slot remains free.
Missing: the other vectors, where `remove` goes wrong (`C200_insert_counterexample`). -/
theorem C200_vector_insert_partial {v : Vec α} (h : Vec.Reachable b e v) {q : List α} (hq : v.Holds q) (hf : q.length + 1 < v.maxSize) (h0 : v.head = 0) (i : Nat)
    (hi : i ≤ q.length) (x : α) :
    ∃ v1 v2, v.step b e (.insert i x) = .ok (.unit, v1) ∧ v1.step b e (.remove i) = .ok (.val x, v2) ∧ v2.Holds q := by
  have hlen : (q.take i).length = i := by simp [hi]
  have hg : (q.take i ++ x :: q.drop i)[i]? = some x := by
    rw [List.getElem?_append_right (by omega), hlen]; simp
  have ht : (q.take i ++ x :: q.drop i).take i = q.take i := by
    rw [List.take_append_of_le_length (by omega), List.take_of_length_le (by omega)]
  have hd : (q.take i ++ x :: q.drop i).drop (i + 1) = q.drop i := by
    rw [List.drop_append, List.drop_of_length_le (by omega), hlen]; simp
  refine vector_undo h hq (by simp only [Seq.step]; rw [if_pos (by omega)]) ?_ trivial fun w hw hk => ?_
  · simp only [Seq.step, hg, ht, hd, List.take_append_drop]
  · refine ⟨hk h0 trivial, ?_⟩
    rw [hw]; simp; omega

/-- **C200** does not hold for `insert` and `remove` in a vector that has lost its first element: the wrong element is removed. -/
theorem C200_insert_counterexample : ∃ v v1 v2, (Vec.create natElem 5).run b natElem [.pushBack 1, .pushBack 2, .pushBack 3, .popFront true] = .ok ([.unit, .unit, .unit, .val 1], v) ∧
    v.Holds [2, 3] ∧ v.step b natElem (.insert 2 7) = .ok (.unit, v1) ∧ v1.step b natElem (.remove 2) = .ok (.val 3, v2) ∧ v2.Holds [2, 7] := by
  have two : ∀ {v : Vec Nat} {x y : Nat}, v.size = 2 → v.get .debug 0 = .ok x → v.get .debug 1 = .ok y → v.Holds [x, y] := by
    intro v x y h0 h1 h2
    refine ⟨h0, fun i hi => ?_⟩
    match i, hi with
    | 0, _ => exact h1
    | 1, _ => exact h2
  cases b <;> exact ⟨_, _, _, rfl, two rfl rfl rfl, rfl, rfl, two rfl rfl rfl⟩

end Vector

/-! ## Outputs -/

/-- **C200.** Flipping an output twice leaves it in the state in which it was put, and drives the level which it drove. -/
theorem C200_flip (d : DigitalOut) (s : Logical) (hs : s ≠ .undefined) : (d.setState s).flip.flip = d.setState s ∧ (d.setState s).flip ≠ d.setState s := by
  cases s with
  | undefined => exact absurd rfl hs
  | on => exact ⟨rfl, fun h => by have := congrArg DigitalOut.active h; cases this⟩
  | off => exact ⟨rfl, fun h => by have := congrArg DigitalOut.active h; cases this⟩

/-! ## Filters -/

/-- **C200.** Inverting twice, in exact arithmetic: a sample inside the range is restored, and the inverted one is inside the range. -/
theorem C200_invert (b : Build) {lo hi x : Rat} (h1 : lo ≤ x) (h2 : x ≤ hi) : ∃ y, invert b lo hi x = .ok y ∧ lo ≤ y ∧ y ≤ hi ∧ invert b lo hi y = .ok x := by
  have a1 : (Arith.le lo x && Arith.le x hi) = true := by simp [Arith.le, h1, h2]
  have a2 : (Arith.le lo (hi - (x - lo)) && Arith.le (hi - (x - lo)) hi) = true := by
    simp only [Arith.le, Bool.and_eq_true, decide_eq_true_eq]; constructor <;> linarith
  refine ⟨hi - (x - lo), ?_, by linarith, by linarith, ?_⟩
  · simp only [invert, a1, spnAssert_true, res_bind_ok]; rfl
  · simp only [invert, a2, spnAssert_true, res_bind_ok, res_pure, Arith.sub]
    congr 1; ring

/-- **C200.** Mapping and mapping back with the ranges exchanged, in exact arithmetic: every sample of the input range is restored, whether or not the filter throws. -/
theorem C200_map {c : MapCfg Rat} (hin : c.inLo < c.inHi) (hout : c.outLo < c.outHi) {x : Rat} (h1 : c.inLo ≤ x) (h2 : x ≤ c.inHi) (t : Bool) :
    ∃ y, c.map x = .ok (some y) ∧ MapCfg.map { inLo := c.outLo, inHi := c.outHi, outLo := c.inLo, outHi := c.inHi, throws := t } y = .ok (some x) := by
  obtain ⟨y, hy, hl⟩ := C50_linear hin h1 h2
  have p1 : 0 < c.inHi - c.inLo := by linarith
  have p2 : 0 < c.outHi - c.outLo := by linarith
  have y1 : c.outLo ≤ y := by
    have := (C50_range hin hy).1; rwa [min_eq_left hout.le] at this
  have y2 : y ≤ c.outHi := by
    have := (C50_range hin hy).2; rwa [max_eq_right hout.le] at this
  refine ⟨y, hy, ?_⟩
  obtain ⟨z, hz, hl'⟩ := C50_linear (c := { inLo := c.outLo, inHi := c.outHi, outLo := c.inLo, outHi := c.inHi, throws := t }) hout y1 y2
  simp only at hl'
  rw [hz]
  have : (z - c.inLo) * (c.outHi - c.outLo) = (x - c.inLo) * (c.outHi - c.outLo) := by rw [hl', hl]
  have := mul_right_cancel₀ p2.ne' this
  congr 2; linarith

/-! ## Controllers -/

/-- **C200.** Reversing a controller and reversing it back, in exact arithmetic, restores the whole controller. -/
theorem C200_direction (s : Pid Rat) (r : Bool) : (s.setDirection r).setDirection s.reverse = s := by
  obtain ⟨kp0, ki0, kd0, r0, inp, out, sp, lt, cu, lr, sa, lo, hi, om⟩ := s
  have h : ∀ k : Rat, Arith.sub fzero (Arith.sub fzero k) = k := fun k => by simp [Arith.sub, fzero, Arith.ofRat]
  unfold Pid.setDirection
  by_cases e : r = r0
  · simp [e]
  · have e' : ¬ r0 = r := fun h => e h.symm
    simp [e, e', Pid.negate, h]

theorem msGt_zero {t : Int} (ht : 0 < t) : msGt t 0 = .ok true := by
  have : KTime.fromOther .milli .milli 0 = .ok 0 := by decide +kernel
  simp [msGt, KTime.gt, this, res_bind_ok, ht]

/-- **C200** does not hold for the sampling time: setting any other sampling time and then setting the former one again leaves a controller without integral gain, since one of
the two ratios is an integer quotient that is zero. -/
theorem C200_sampling_counterexample (s : Pid Rat) (hs : 0 < s.sampling) {t : Int} (ht : 0 < t) (hne : t ≠ s.sampling) :
    ∃ s1 s2, s.setSampling t = .ok s1 ∧ s1.setSampling s.sampling = .ok s2 ∧ s2.sampling = s.sampling ∧ s2.ki = 0 := by
  have hz : Int.tdiv t s.sampling = 0 ∨ Int.tdiv s.sampling t = 0 := by
    rcases lt_or_gt_of_ne hne with h | h
    · exact .inl (Int.tdiv_eq_zero_of_lt ht.le h)
    · exact .inr (Int.tdiv_eq_zero_of_lt hs.le h)
  have h1 : s.setSampling t = .ok { s with ki := Arith.mul s.ki (Arith.ofRat (Int.tdiv t s.sampling)), kd := Arith.div s.kd (Arith.ofRat (Int.tdiv t s.sampling)), sampling := t } := by
    simp only [Pid.setSampling, msGt_zero ht, res_bind_ok, if_true, if_neg hs.ne']
    rfl
  have h2 : ∀ w : Pid Rat, w.sampling = t → w.setSampling s.sampling =
      .ok { w with ki := Arith.mul w.ki (Arith.ofRat (Int.tdiv s.sampling t)), kd := Arith.div w.kd (Arith.ofRat (Int.tdiv s.sampling t)), sampling := s.sampling } := by
    intro w hw
    simp only [Pid.setSampling, msGt_zero hs, res_bind_ok, if_true, hw, if_neg ht.ne']
    rfl
  refine ⟨_, _, h1, h2 _ rfl, rfl, ?_⟩
  simp only [Arith.mul, Arith.ofRat]
  rcases hz with h | h <;> simp [h]

/-- **C200** does not hold for the limits either: narrower limits clamp the output and the sum of the errors, and wider ones do not restore them. -/
theorem C200_limits_counterexample (s : Pid Rat) {lo hi : Rat} (h : lo < hi) (hs : s.lo < s.hi) (h1 : s.lo ≤ lo) (h2 : hi ≤ s.hi) :
    (s.setLimits lo hi).setLimits s.lo s.hi = { s with output := max lo (min hi s.output), cumulative := max lo (min hi s.cumulative) } := by
  have c : ∀ {a b x : Rat}, a < b → Pid.clamp a b x = max a (min b x) := by
    intro a b x hab
    simp only [Pid.clamp, Arith.lt, decide_eq_true_eq]
    split
    · rename_i hx; rw [min_eq_left hx.le, max_eq_right hab.le]
    · rename_i hx
      rw [min_eq_right (not_lt.mp hx)]
      split
      · rename_i hy; rw [max_eq_left hy.le]
      · rename_i hy; rw [max_eq_right (not_lt.mp hy)]
  have i : ∀ x : Rat, max s.lo (min s.hi (max lo (min hi x))) = max lo (min hi x) := by
    intro x
    rw [min_eq_right (max_le (h.le.trans h2) ((min_le_left _ _).trans h2)), max_eq_right (h1.trans (le_max_left _ _))]
  obtain ⟨kp0, ki0, kd0, r0, inp, out, sp, lt, cu, lr, sa, lo0, hi0, om⟩ := s
  simp only at hs i
  simp only [Pid.setLimits, Arith.le, decide_eq_true_eq, if_neg (not_le.mpr h), if_neg (not_le.mpr hs), c h, c hs, i]

/-! ## Concrete cases -/

/-- `C200_ring_partial` on a buffer of capacity 3 that has wrapped around, with more elements than fit. -/
example : (do
    let r ← Ring.create .debug 3 (0 : Nat)
    let (_, r) ← r.run [.push 1 false, .push 2 false, .pop, .push 3 false, .pop]
    let (k, r1) ← r.pushMany [7, 8, 9] false
    let (j, r2) ← r1.dropLast k
    return (r.usedSpace, k, r1.usedSpace, j, r2.usedSpace, ← r2.peekAt 0) : Res (Nat × Nat × Nat × Nat × Nat × Option Nat)) = .ok (1, 2, 3, 2, 1, some 3) := rfl

/-- `C200_vector_back` on a vector that was emptied from the front. -/
example : ∃ v v1 v2, (Vec.create natElem 3).run .debug natElem [.pushBack 1, .popFront true] = .ok ([.unit, .val 1], v) ∧ v.Holds [] ∧
    v.step .debug natElem (.pushBack 7) = .ok (.unit, v1) ∧ v1.step .debug natElem (.popBack true) = .ok (.val 7, v2) ∧ v2.Holds [] :=
  ⟨_, _, _, rfl, ⟨rfl, fun i hi => absurd hi (Nat.not_lt_zero i)⟩, rfl, rfl, ⟨rfl, fun i hi => absurd hi (Nat.not_lt_zero i)⟩⟩

/-- `C200_map` for a sensor of four to twenty milliamperes. -/
example : MapCfg.map ({ inLo := 4, inHi := 20, outLo := 0, outHi := 100, throws := true } : MapCfg Rat) 12 = .ok (some 50) ∧
    MapCfg.map ({ inLo := 0, inHi := 100, outLo := 4, outHi := 20, throws := true } : MapCfg Rat) 50 = .ok (some 12) := by decide +kernel

/-- Why `C200_map` is about exact arithmetic: a float need not come back. -/
example : ∃ y, MapCfg.map { inLo := Fl.ofRat 0, inHi := Fl.ofRat 3, outLo := Fl.ofRat 100, outHi := Fl.ofRat 200, throws := true } (Fl.ofRat (1 / 1000000000)) = .ok (some y) ∧
    MapCfg.map { inLo := Fl.ofRat 100, inHi := Fl.ofRat 200, outLo := Fl.ofRat 0, outHi := Fl.ofRat 3, throws := true } y = .ok (some (Fl.ofRat 0)) :=
  ⟨Fl.ofRat 100, by decide +kernel, by decide +kernel⟩

/-- `C200_sampling_counterexample` on the default sampling time: from 100 ms to 200 ms and back, in floats. The derivative gain becomes infinite. -/
example : (do
    let s ← Pid.create .debug 0 (fzero : Fl) fzero fzero (Fl.ofRat 20) (Fl.ofRat 3) (Fl.ofRat 1) false false
    let s2 ← (← s.setSampling 200).setSampling 100
    return (s2.ki, s2.kd, s2.sampling) : Res (Fl × Fl × Int)) = .ok (.num false 0, .inf false, 100) := by decide +kernel

/-- `C200_limits_counterexample`: an output of 200 comes back as 100. -/
example : ((Pid.mk 1 0 0 false 0 200 0 0 150 0 100 0 255 false : Pid Rat).setLimits 0 100 |>.setLimits 0 255).output = 100 := by decide +kernel

end Spine
