import Verif.Props.Vector
import Verif.Props.VectorOwn
/-!
# Property C177: references to elements of a vector

`v[k]`, `peek_front` and `peek_back` return references. Such a reference is a slot of the storage (`Vec.slotOf`). It stays valid as long as the element it was taken for is in that slot.
-/

namespace Spine

variable {α : Type} {b : Build} {e : Elem α}

attribute [local irreducible] usub uadd sizeMod

open Vec

/-- C177, adding at the back: the elements keep their slots iff there are none or the window does not end at the end of the storage. -/
theorem C177_push_back_exact {v : Vec α} (hv : Vec.Reachable b e v) {q : List α} (hq : v.Holds q) (hroom : q.length < v.maxSize) (x : α) :
    ∃ v', v.pushBack b e x = .ok v' ∧ v'.Holds (q ++ [x]) ∧ ((∀ k, k < q.length → v'.slotOf b k = v.slotOf b k) ↔ q = [] ∨ v.tail < v.maxSize) := by
  obtain ⟨pre, post, log, rfl, hl, hs⟩ := hv.rep' hq
  have hf : Fits pre q post := by simp only [Fits]; omega
  rw [maxSize_mk'] at hroom
  cases post with
  | cons p post =>
    refine ⟨_, pushBack_room p x, holds_mk' (by simp only [Fits, List.length_cons, List.length_append, List.length_nil] at *; omega), ⟨fun _ => .inr ?_, fun _ k hk => ?_⟩⟩
    · rw [maxSize_mk']; simp [mk']
    · rw [slotOf_at k hk, slotOf_at k (by simp; omega)]
  | nil =>
    have hpre : pre ≠ [] := by
      rintro rfl
      simp at hroom
    have hc := compact_move (b := b) (e := e) (log := log) hf hpre
    obtain ⟨a, pre', rfl⟩ := List.exists_cons_of_ne_nil hpre
    rw [List.length_cons, List.replicate_succ] at hc
    refine ⟨_, (pushBack_compact x hc (compact_room _)).trans (pushBack_room _ x), holds_mk' ?_, ⟨fun h => .inl ?_, fun h k hk => ?_⟩⟩
    · simp only [Fits, List.length_cons, List.length_append, List.length_replicate, List.length_nil] at *
      omega
    · refine Classical.byContradiction fun hne => ?_
      have hpos := List.length_pos_iff.mpr hne
      have h0 := h 0 hpos
      rw [slotOf_at 0 hpos, slotOf_at 0 (by simp)] at h0
      simp at h0
    · rcases h with rfl | h
      · cases hk
      · rw [maxSize_mk'] at h
        simp [mk'] at h

/-- C177, adding at the front: the elements keep their slots iff there are none or the window does not begin at slot 0. -/
theorem C177_push_front_exact {v : Vec α} (hv : Vec.Reachable b e v) {q : List α} (hq : v.Holds q) (hroom : q.length < v.maxSize) (x : α) :
    ∃ v', v.pushFront b e x = .ok v' ∧ v'.Holds (x :: q) ∧ ((∀ k, k < q.length → v'.slotOf b (k + 1) = v.slotOf b k) ↔ q = [] ∨ 0 < v.head) := by
  obtain ⟨pre, post, log, rfl, hl, hs⟩ := hv.rep' hq
  have hf : Fits pre q post := by simp only [Fits]; omega
  rw [maxSize_mk'] at hroom
  obtain ⟨pre', y, post', h, hlen, hor⟩ := front_spec (e := e) (log := log) hf hroom x
  refine ⟨_, (pushFront_eq hf hroom x).trans h, holds_mk' (by simp only [Fits, List.length_cons] at *; omega), ⟨fun h' => ?_, fun h' k hk => ?_⟩⟩
  · by_cases hne : q = []
    · exact .inl hne
    · refine .inr ?_
      have hpos := List.length_pos_iff.mpr hne
      have h0 := h' 0 hpos
      rw [slotOf_at 0 hpos, slotOf_at 1 (by simpa using hpos)] at h0
      have := Except.ok.inj h0
      show 0 < pre.length
      omega
  · rcases h' with rfl | h'
    · cases hk
    · have hp : 0 < pre.length := h'
      rw [slotOf_at k hk, slotOf_at (k + 1) (by simpa using hk)]
      rcases hor with ⟨rfl, -⟩ | ⟨-, h2, -⟩
      · congr 1; simp; omega
      · rw [h2] at hp; cases hp

/-- C177, taking away: the elements that remain keep their slots. -/
theorem C177_pop_keeps {v : Vec α} (hv : Vec.Reachable b e v) {q : List α} (c : Bool) :
    (∀ x, v.Holds (x :: q) → ∃ v', v.popFront b e c = .ok (x, v') ∧ v'.Holds q ∧ ∀ k, k < q.length → v'.slotOf b k = v.slotOf b (k + 1)) ∧
      (∀ x, v.Holds (q ++ [x]) → q ≠ [] → ∃ v', v.popBack b e c = .ok (x, v') ∧ v'.Holds q ∧ ∀ k, k < q.length → v'.slotOf b k = v.slotOf b k) := by
  constructor
  · intro x hq
    obtain ⟨pre, post, log, rfl, hl, hs⟩ := hv.rep' hq
    have hf : Fits pre (x :: q) post := by simp only [Fits]; omega
    cases q with
    | nil => exact ⟨_, popFront_one x c hf, holds_mk' (by simp only [Fits, List.length_cons, List.length_append, List.length_nil] at *; omega), fun k hk => by cases hk⟩
    | cons y q =>
      refine ⟨_, popFront_more x y q c hf, holds_mk' (by simp only [Fits, List.length_cons, List.length_append, List.length_nil] at *; omega), fun k hk => ?_⟩
      rw [slotOf_at k hk, slotOf_at (k + 1) (by simpa using hk)]
      congr 1; simp; omega
  · intro x hq hne
    obtain ⟨pre, post, log, rfl, hl, hs⟩ := hv.rep' hq
    have hf : Fits pre (q ++ [x]) post := by simp only [Fits]; omega
    refine ⟨_, popBack_more x q hne c hf, holds_mk' (by simp only [Fits, List.length_cons, List.length_append, List.length_nil] at *; omega), fun k hk => ?_⟩
    rw [slotOf_at k hk, slotOf_at k (by simp; omega)]

/-- Calls of a program that uses a vector as a stack: it adds and takes away at the back, and looks at and changes elements. -/
def Vec.Op.StackUse : Vec.Op α → Prop
  | .pushBack _ | .emplaceBack _ | .popBack _ | .put _ _ | .get _ | .peekFront | .peekBack | .back | .size | .empty | .full | .maxSize => True
  | _ => False

/-- C177 for vectors used as a stack: after any history, element `k` is in slot `k`, so references stay valid until their element is taken away. -/
theorem C177_stack_partial {v : Vec α} {q : List α} (hv : Vec.Start e v q) (hn : v.maxSize < sizeMod) (ops : List (Vec.Op α)) (hops : ∀ op ∈ ops, op.StackUse) {outs : List (Vec.Out α)}
    {q' : List α} (hseq : Seq.run v.maxSize q ops = some (outs, q')) :
    ∃ v', v.run b e ops = .ok (outs, v') ∧ v'.Holds q' ∧ ∀ k, k < q'.length → v'.slotOf b k = .ok k := by
  obtain ⟨v', h1, h2, h3⟩ := Vec.Rep.run (b := b) (e := e) (n := v.maxSize)
    (P := fun w _ ops => w.head = 0 ∧ ∀ op ∈ ops, op.StackUse)
    (fun w q op ops hr hp => by
      have hu := hp.2 op (by simp)
      have hs : Vec.Sound w q op ∧ Vec.KeepsFront op := by
        obtain ⟨h0, -⟩ := hp
        cases op <;> simp_all [Vec.Sound, Vec.KeepsFront, Vec.Op.StackUse]
      refine ⟨hs.1, fun o q' v' h1 h2 h3 => ⟨?_, fun o ho => hp.2 o (by simp [ho])⟩⟩
      obtain ⟨w', h4, _, h5⟩ := hr.step (b := b) (e := e) h1 hs.1
      rw [h4] at h2
      obtain ⟨-, rfl⟩ := Prod.mk.inj (Except.ok.inj h2)
      exact h5 hp.1 hs.2)
    ops v q outs q' (hv.rep hn).1 ⟨(hv.rep hn).2, hops⟩ hseq
  refine ⟨v', h1, h2.holds, fun k hk => ?_⟩
  obtain ⟨pre, post, log, rfl, -, -⟩ := h2
  rw [slotOf_at k hk]
  have : pre.length = 0 := h3.1
  rw [this, Nat.zero_add]

unseal usub sizeMod in
/-- C177 is false: a reference to the front of a queue of capacity 3 (slot 1, element 2) shows element 3 after a push at the end of the storage; and a reference to the first element
of a vector shows the new element after a push at the front. -/
theorem C177_moved_counterexample :
    ∃ v v' : Vec Nat, (Vec.create natElem 3).run b natElem [.pushBack 1, .pushBack 2, .pushBack 3, .popFront true] = .ok ([.unit, .unit, .unit, .val 1], v) ∧ v.slotOf b 0 = .ok 1 ∧
      rd v.store 1 = .ok 2 ∧ v.pushBack b natElem 4 = .ok v' ∧ v'.Holds [2, 3, 4] ∧ rd v'.store 1 = .ok 3 := by
  cases b <;> refine ⟨_, _, rfl, rfl, rfl, rfl, ⟨rfl, ?_⟩, rfl⟩ <;> intro i h <;> (rcases i with _ | _ | _ | i) <;> first | rfl | (simp at h; omega)

unseal usub sizeMod in
theorem C177_front_counterexample :
    ∃ v v' : Vec Nat, (Vec.create natElem 3).run b natElem [.pushBack 1] = .ok ([.unit], v) ∧ v.slotOf b 0 = .ok 0 ∧ v.pushFront b natElem 9 = .ok v' ∧ v'.Holds [9, 1] ∧ rd v'.store 0 = .ok 9 := by
  cases b <;> refine ⟨_, _, rfl, rfl, rfl, ⟨rfl, ?_⟩, rfl⟩ <;> intro i h <;> (rcases i with _ | _ | i) <;> first | rfl | (simp at h; omega)

/-- Non-vacuity of `C177_stack_partial`. -/
example : Seq.run 3 ([] : List Nat) [.pushBack 1, .pushBack 2, .popBack true, .pushBack 3, .put 0 7] = some ([.unit, .unit, .val 2, .unit, .unit], [7, 3]) ∧
    ∀ op ∈ ([.pushBack 1, .pushBack 2, .popBack true, .pushBack 3, .put 0 7] : List (Vec.Op Nat)), op.StackUse := by
  refine ⟨by decide, ?_⟩
  intro op h
  simp at h
  rcases h with rfl | rfl | rfl | rfl | rfl <;> trivial

end Spine
