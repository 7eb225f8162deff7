import Verif.Props.Vector
import Verif.Props.Array
import Verif.Model.VectorInherited
/-!
# C140: the members a `Vector` inherits from `Array`
-/

namespace Spine

variable {α : Type} {b : Build} {e : Elem α}

open Vec

/-- C140 (partial): `at(i)` and `data()[i]` are element `i` of a vector from which nothing was taken at the front, and a loop from `cbegin()` to `cend()` sees the elements of a
vector that is full.  Missing: the other vectors (`C140_at_exact`, `C140_const_loop_exact` and the counterexamples). -/
theorem C140_inherited_partial {v : Vec α} (hv : Vec.Reachable b e v) {q : List α} (hq : v.Holds q) :
    (v.head = 0 → ∀ i (h : i < q.length), v.atIndex i = .ok q[i] ∧ v.dataAt i = .ok q[i]) ∧
      (q.length = v.maxSize → v.constForward (v.maxSize + 1) = .ok q) := by
  obtain ⟨pre, post, log, rfl, hl, hn⟩ := hv.rep' hq
  constructor
  · intro h0 i h
    obtain rfl : pre = [] := List.length_eq_zero_iff.mp h0
    have : rd ([] ++ q ++ post) i = .ok q[i] := by
      rw [rd, List.nil_append, List.getElem?_append_left h, List.getElem?_eq_getElem h]
    exact ⟨this, this⟩
  · intro hf
    rw [hf] at hl
    obtain rfl : pre = [] := List.length_eq_zero_iff.mp (by omega)
    obtain rfl : post = [] := List.length_eq_zero_iff.mp (by omega)
    have := (C27_reverse_iteration_partial q (by rw [hf]; exact hn)).2
    rw [hf] at this
    simpa [constForward, mk'] using this

/-- C140: in every reachable vector the elements are at the indices from `m_head` on, for `at` and `data`; below that and from `m_tail` on, up to the capacity, they give whatever is in the
storage instead of failing. -/
theorem C140_at_exact {v : Vec α} (hv : Vec.Reachable b e v) {q : List α} (hq : v.Holds q) :
    (∀ i (h : i < q.length), v.atIndex (v.head + i) = .ok q[i] ∧ v.dataAt (v.head + i) = .ok q[i]) ∧
      ∀ i, (∃ x, v.atIndex i = .ok x) ↔ i < v.maxSize := by
  obtain ⟨pre, post, log, rfl, hl, hn⟩ := hv.rep' hq
  constructor
  · intro i h
    have : rd (pre ++ q ++ post) (pre.length + i) = .ok q[i] := by
      rw [rd, List.append_assoc, List.getElem?_append_right (by omega), Nat.add_sub_cancel_left, List.getElem?_append_left h, List.getElem?_eq_getElem h]
    exact ⟨this, this⟩
  · intro i
    rw [← hl]
    show (∃ x, rd (pre ++ q ++ post) i = .ok x) ↔ _
    rw [rd]
    constructor
    · rintro ⟨x, h⟩
      refine Nat.lt_of_not_le fun hc => ?_
      rw [List.getElem?_eq_none (by simp; omega)] at h
      cases h
    · intro h
      rw [List.getElem?_eq_getElem (by simp; omega)]
      exact ⟨_, rfl⟩

/-- C140: a loop from `cbegin()` to `cend()` always makes `max_size()` rounds, so it sees the elements, and only them, exactly if the vector is full. -/
theorem C140_const_loop_exact {v : Vec α} (hv : Vec.Reachable b e v) {q : List α} (hq : v.Holds q) :
    ∃ l, v.constForward (v.maxSize + 1) = .ok l ∧ l.length = v.maxSize ∧ (l = q ↔ q.length = v.maxSize) ∧
      ∀ i (h : i < q.length), l[v.head + i]? = some q[i] := by
  obtain ⟨pre, post, log, rfl, hl, hn⟩ := hv.rep' hq
  have hlen : (pre ++ q ++ post).length = (mk' pre q post log).maxSize := by rw [← hl]; simp; omega
  refine ⟨pre ++ q ++ post, ?_, hlen, ⟨fun h => by rw [← hlen, h], fun h => ?_⟩, ?_⟩
  · have := (C27_reverse_iteration_partial (pre ++ q ++ post) (by rw [hlen]; exact hn)).2
    rw [hlen] at this
    exact this
  · obtain rfl : pre = [] := List.length_eq_zero_iff.mp (by omega)
    obtain rfl : post = [] := List.length_eq_zero_iff.mp (by omega)
    simp
  · intro i h
    show (pre ++ q ++ post)[pre.length + i]? = _
    rw [List.append_assoc, List.getElem?_append_right (by omega), Nat.add_sub_cancel_left, List.getElem?_append_left h, List.getElem?_eq_getElem h]

/-- C140 is false after `pop_front`: `at(0)` is the element that was removed, and the loop sees it too, together with an unused slot. -/
theorem C140_at_counterexample :
    ∃ v, (Vec.create natElem 3).run b natElem [.pushBack 1, .pushBack 2, .popFront false] = .ok ([.unit, .unit, .val 1], v) ∧
      v.Holds [2] ∧ v.atIndex 0 = .ok 1 ∧ v.dataAt 0 = .ok 1 ∧ v.constForward 4 = .ok [1, 2, 0] := by
  cases b <;> refine ⟨_, rfl, ⟨rfl, ?_⟩, rfl, rfl, rfl⟩ <;> intro i h <;>
    (obtain rfl : i = 0 := by simpa using h) <;> rfl

/-- C140 is false for `crbegin()`..`crend()`, whatever the vector holds: it sees nothing. -/
theorem C140_const_reverse_counterexample (v : Vec α) (fuel : Nat) : v.constReverse (fuel + 1) = .ok [] :=
  C27_const_reverse_counterexample v.store fuel

/-- A full vector that was never popped. -/
example : ∃ v, (Vec.create natElem 2).run b natElem [.pushBack 1, .pushBack 2] = .ok ([.unit, .unit], v) ∧ v.head = 0 ∧ v.maxSize = 2 ∧
    v.atIndex 1 = .ok 2 ∧ v.constForward 3 = .ok [1, 2] := by
  cases b <;> exact ⟨_, rfl, rfl, rfl, rfl, rfl⟩

end Spine
