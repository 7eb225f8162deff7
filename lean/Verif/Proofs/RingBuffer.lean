import Verif.Spec.Queue
/-!
# Lemmas: the ring buffer model refines the bounded queue
-/

namespace Spine

variable {α : Type}

/-- `a % n` for `a < 2 * n`. -/
def wrap (n a : Nat) : Nat := if a < n then a else a - n

theorem mod_eq_wrap {n a : Nat} (h : a < 2 * n) : a % n = wrap n a := by
  unfold wrap
  split
  · exact Nat.mod_eq_of_lt ‹_›
  · rw [Nat.mod_eq_sub_mod (by omega)]
    exact Nat.mod_eq_of_lt (by omega)

theorem umod_eq {n a : Nat} (hn : 0 < n) (h : a < 2 * n) : umod a n = .ok (wrap n a) := by
  unfold umod
  rw [if_neg (by omega), mod_eq_wrap h]

theorem rd_ok {m : List α} {i : Nat} {a : α} (h : m[i]? = some a) : rd m i = .ok a := by
  unfold rd; rw [h]

theorem rd_lt {m : List α} {i : Nat} (h : i < m.length) : rd m i = .ok m[i] := by
  unfold rd; rw [List.getElem?_eq_getElem h]

theorem wr_ok {m : List α} {i : Nat} {v : α} (h : i < m.length) : wr m i v = .ok (m.set i v) := by
  unfold wr; rw [if_pos h]

namespace Ring

/-- The model state `r` of capacity `n` represents the queue `q`. -/
structure Rep (n : Nat) (r : Ring α) (q : List α) : Prop where
  len : r.buf.length = n
  pos : 0 < n
  tailLt : r.tail < n
  qle : q.length ≤ n
  headEq : r.head = wrap n (r.tail + q.length)
  fullIff : r.isFull = decide (q.length = n)
  slots : ∀ i (h : i < q.length), r.buf[wrap n (r.tail + i)]? = some q[i]

theorem wrap_lt {n a : Nat} (h : a < 2 * n) : wrap n a < n := by unfold wrap; split <;> omega

section
variable {n : Nat} {r : Ring α} {q : List α}

theorem Rep.headLt (h : Rep n r q) : r.head < n := by
  rw [h.headEq]; exact wrap_lt (by have := h.tailLt; have := h.qle; omega)

theorem Rep.used (h : Rep n r q) : r.usedSpace = q.length := by
  obtain ⟨h1, h2, h3, h4, h5, h6, h7⟩ := h
  unfold usedSpace full capacity
  rw [h6, h5, h1]; unfold wrap
  by_cases hq : q.length = n
  · simp [hq]
  · simp only [hq, decide_false, Bool.false_eq_true, if_false]
    repeat' split
    all_goals omega

theorem Rep.free (h : Rep n r q) : r.freeSpace = n - q.length := by
  obtain ⟨h1, h2, h3, h4, h5, h6, h7⟩ := h
  unfold freeSpace full capacity
  rw [h6, h5, h1]; unfold wrap
  by_cases hq : q.length = n
  · simp [hq]
  · simp only [hq, decide_false, Bool.false_eq_true, if_false]
    repeat' split
    all_goals omega

theorem Rep.emptyEq (h : Rep n r q) : r.empty = decide (q.length = 0) := by
  obtain ⟨h1, h2, h3, h4, h5, h6, h7⟩ := h
  unfold empty full
  rw [h6, h5]; unfold wrap
  by_cases hq : q.length = n
  · have : q.length ≠ 0 := by omega
    simp [hq]; omega
  · simp only [hq, decide_false, Bool.not_false, Bool.true_and]
    by_cases h0 : q.length = 0
    · simp [h0]; omega
    · simp only [h0, decide_false, beq_eq_false_iff_ne]
      split <;> omega

theorem Rep.fullEq (h : Rep n r q) : r.full = decide (q.length = n) := h.fullIff

theorem Rep.peek (h : Rep n r q) (i : Nat) : r.peekAt i = .ok q[i]? := by
  unfold peekAt
  rw [h.used]
  by_cases hi : i < q.length
  · have hs := h.slots i hi
    have : umod (r.tail + i) r.buf.length = .ok (wrap n (r.tail + i)) := by
      rw [h.len]; exact umod_eq h.pos (by have := h.tailLt; have := h.qle; omega)
    simp [Nat.not_le.mpr hi, this, rd_ok hs, bind, Except.bind, pure, Except.pure, hi]
  · simp [Nat.not_lt.mp hi, pure, Except.pure]

theorem Rep.peekPtr (h : Rep n r q) {i : Nat} (hi : i < q.length) :
    r.peekPtrAt i = .ok (some (wrap n (r.tail + i))) := by
  unfold peekPtrAt
  rw [h.used]
  have : umod (r.tail + i) r.buf.length = .ok (wrap n (r.tail + i)) := by
    rw [h.len]; exact umod_eq h.pos (by have := h.tailLt; have := h.qle; omega)
  simp [Nat.not_le.mpr hi, this, bind, Except.bind, pure, Except.pure]

theorem Rep.peekPtr_none (h : Rep n r q) {i : Nat} (hi : q.length ≤ i) :
    r.peekPtrAt i = .ok none := by
  unfold peekPtrAt
  rw [h.used]
  simp [hi, pure, Except.pure]

theorem Rep.holds (h : Rep n r q) : r.Holds q := ⟨h.used, h.peek⟩

/-- The observable contents determine the abstract queue. -/
theorem Holds.unique {q₁ q₂ : List α} (h₁ : r.Holds q₁) (h₂ : r.Holds q₂) : q₁ = q₂ := by
  apply List.ext_getElem?
  intro i
  have := (h₁.2 i).symm.trans (h₂.2 i)
  exact Except.ok.inj this

/-- The successful part of `push`. -/
theorem Rep.push_space (h : Rep n r q) (v : α) (ro : Bool) (hq : q.length < n) :
    ∃ r', r.push v ro = .ok (true, r') ∧ Rep n r' (q ++ [v]) ∧ r'.overwritten = r.overwritten := by
  have hl := h.headLt
  have hf : r.isFull = false := by rw [h.fullIff]; simp; omega
  obtain ⟨h1, h2, h3, h4, h5, h6, h7⟩ := h
  have hw : wr r.buf r.head v = .ok (r.buf.set r.head v) := wr_ok (by omega)
  have hm : umod (r.head + 1) r.buf.length = .ok (wrap n (r.head + 1)) := by
    rw [h1]; exact umod_eq h2 (by omega)
  have hslots : ∀ i (h : i < (q ++ [v]).length),
      (r.buf.set r.head v)[wrap n (r.tail + i)]? = some (q ++ [v])[i] := by
    intro i hi
    simp only [List.length_append, List.length_cons, List.length_nil] at hi
    by_cases hiq : i < q.length
    · have hne : r.head ≠ wrap n (r.tail + i) := by
        rw [h5]; unfold wrap; split <;> split <;> omega
      rw [List.getElem?_set_ne hne, h7 i hiq, List.getElem_append_left hiq]
    · have : i = q.length := by omega
      subst this
      rw [← h5, List.getElem?_set_self (by omega)]
      simp
  by_cases ht : wrap n (r.head + 1) = r.tail
  · refine ⟨{ r with buf := r.buf.set r.head v, head := wrap n (r.head + 1), isFull := true }, ?_, ?_, rfl⟩
    · unfold push
      simp [hf, hw, hm, ht, bind, Except.bind, pure, Except.pure]
    · have hqn : q.length + 1 = n := by
        rw [h5] at ht; unfold wrap at ht; repeat' split at ht
        all_goals omega
      refine ⟨by simp [h1], h2, h3, by simp; omega, ?_, by simp [hqn], hslots⟩
      simp only [List.length_append, List.length_cons, List.length_nil]
      rw [ht]; unfold wrap; split <;> omega
  · refine ⟨{ r with buf := r.buf.set r.head v, head := wrap n (r.head + 1) }, ?_, ?_, rfl⟩
    · unfold push
      simp [hf, hw, hm, ht, bind, Except.bind, pure, Except.pure]
    · have hqn : q.length + 1 ≠ n := by
        intro hqn
        apply ht
        rw [h5]; unfold wrap; repeat' split
        all_goals omega
      refine ⟨by simp [h1], h2, h3, by simp; omega, ?_, by simp [hf, hqn], hslots⟩
      simp only [List.length_append, List.length_cons, List.length_nil]
      rw [h5]; unfold wrap; repeat' split
      all_goals omega

theorem Rep.push_reject (h : Rep n r q) (v : α) (hq : q.length = n) :
    r.push v false = .ok (false, r) := by
  unfold push
  simp [h.fullIff, hq, pure, Except.pure]

theorem Rep.push_rollover (h : Rep n r q) (v : α) (hq : q.length = n) :
    ∃ r', r.push v true = .ok (true, r') ∧ Rep n r' (q.drop 1 ++ [v]) ∧
      r'.overwritten = if n = 1 then r.overwritten else uadd r.overwritten 1 := by
  have hl := h.headLt
  have hf : r.isFull = true := by rw [h.fullIff]; simp; omega
  obtain ⟨h1, h2, h3, h4, h5, h6, h7⟩ := h
  have hht : r.head = r.tail := by rw [h5]; unfold wrap; split <;> omega
  have hw : wr r.buf r.head v = .ok (r.buf.set r.head v) := wr_ok (by omega)
  have hm : umod (r.head + 1) r.buf.length = .ok (wrap n (r.head + 1)) := by
    rw [h1]; exact umod_eq h2 (by omega)
  have hm' : umod (r.tail + 1) r.buf.length = .ok (wrap n (r.tail + 1)) := by
    rw [h1]; exact umod_eq h2 (by omega)
  by_cases hn : n = 1
  · have ht : wrap n (r.head + 1) = r.tail := by unfold wrap; split <;> omega
    refine ⟨{ r with buf := r.buf.set r.head v, head := wrap n (r.head + 1), isFull := true }, ?_, ?_, by simp [hn]⟩
    · unfold push
      simp [hf, hw, hm, ht, bind, Except.bind, pure, Except.pure]
    · have hlen : (q.drop 1 ++ [v]).length = n := by simp; omega
      refine ⟨by simp [h1], h2, h3, by omega, ?_, by rw [hlen]; simp, ?_⟩
      · rw [hlen]; show wrap n (r.head + 1) = wrap n (r.tail + n); rw [hht, hn]
      · intro i hi
        have hi0 : i = 0 := by omega
        subst hi0
        have : wrap n (r.tail + 0) = r.head := by unfold wrap; split <;> omega
        show (r.buf.set r.head v)[wrap n (r.tail + 0)]? = _
        rw [this, List.getElem?_set_self (by omega)]
        have hd : q.drop 1 = [] := List.drop_eq_nil_of_le (by omega)
        simp [hd]
  · have ht : wrap n (r.head + 1) ≠ r.tail := by unfold wrap; split <;> omega
    refine ⟨{ r with buf := r.buf.set r.head v, head := wrap n (r.head + 1), tail := wrap n (r.tail + 1),
                     overwritten := uadd r.overwritten 1 }, ?_, ?_, by simp [hn]⟩
    · unfold push
      simp [hf, hw, hm, hm', ht, bind, Except.bind, pure, Except.pure]
    · have hlen : (q.drop 1 ++ [v]).length = n := by simp; omega
      refine ⟨by simp [h1], h2, wrap_lt (by omega), by omega, ?_, by rw [hlen]; simp [hf], ?_⟩
      · rw [hlen]; show wrap n (r.head + 1) = wrap n (wrap n (r.tail + 1) + n)
        rw [hht]; unfold wrap; repeat' split
        all_goals omega
      · intro i hi
        rw [hlen] at hi
        show (r.buf.set r.head v)[wrap n (wrap n (r.tail + 1) + i)]? = _
        by_cases hin : i + 1 = n
        · have : wrap n (wrap n (r.tail + 1) + i) = r.head := by
            unfold wrap; repeat' split
            all_goals omega
          rw [this, List.getElem?_set_self (by omega)]
          rw [List.getElem_append_right (by simp; omega)]
          simp
        · have hne : r.head ≠ wrap n (wrap n (r.tail + 1) + i) := by
            unfold wrap; repeat' split
            all_goals omega
          have he : wrap n (wrap n (r.tail + 1) + i) = wrap n (r.tail + (i + 1)) := by
            unfold wrap; repeat' split
            all_goals omega
          rw [List.getElem?_set_ne hne, he, h7 (i + 1) (by omega)]
          rw [List.getElem_append_left (by simp; omega)]
          simp [Nat.add_comm]

theorem Rep.pop_some {v : α} (h : Rep n r (v :: q)) :
    ∃ r', r.pop = .ok (some v, r') ∧ Rep n r' q ∧ r'.overwritten = 0 := by
  have he := h.emptyEq
  obtain ⟨h1, h2, h3, h4, h5, h6, h7⟩ := h
  simp only [List.length_cons] at h4 h5 h6 he
  have hr : rd r.buf r.tail = .ok v := by
    have := h7 0 (by simp)
    have hw : wrap n (r.tail + 0) = r.tail := by unfold wrap; split <;> omega
    rw [hw] at this
    exact rd_ok this
  have hm' : umod (r.tail + 1) r.buf.length = .ok (wrap n (r.tail + 1)) := by
    rw [h1]; exact umod_eq h2 (by omega)
  refine ⟨{ r with tail := wrap n (r.tail + 1), isFull := false, overwritten := 0 }, ?_, ?_, rfl⟩
  · unfold pop
    simp [he, hr, hm', bind, Except.bind, pure, Except.pure]
  · refine ⟨h1, h2, wrap_lt (by omega), by omega, ?_, by simp; omega, ?_⟩
    · show r.head = wrap n (wrap n (r.tail + 1) + q.length)
      rw [h5]; unfold wrap; repeat' split
      all_goals omega
    · intro i hi
      have := h7 (i + 1) (by simp; omega)
      show r.buf[wrap n (wrap n (r.tail + 1) + i)]? = _
      have he : wrap n (wrap n (r.tail + 1) + i) = wrap n (r.tail + (i + 1)) := by
        unfold wrap; repeat' split
        all_goals omega
      rw [he, this]; simp

theorem Rep.pop_none (h : Rep n r []) : r.pop = .ok (none, r) := by
  unfold pop
  simp [h.emptyEq, pure, Except.pure]

end

theorem Rep.pushMany_false {n : Nat} : ∀ (vs : List α) {r : Ring α} {q : List α}, Rep n r q →
    ∃ r', r.pushMany vs false = .ok (min vs.length (n - q.length), r') ∧
      Rep n r' (q ++ vs.take (n - q.length)) ∧ r'.overwritten = r.overwritten
  | [], r, q, h => ⟨r, by simp [pushMany], by simpa using h, rfl⟩
  | v :: vs, r, q, h => by
    by_cases hq : q.length < n
    · obtain ⟨r₁, e₁, h₁, o₁⟩ := h.push_space v false hq
      obtain ⟨r₂, e₂, h₂, o₂⟩ := Rep.pushMany_false vs h₁
      refine ⟨r₂, ?_, ?_, by rw [o₂, o₁]⟩
      · unfold pushMany
        simp only [e₁, e₂, bind, Except.bind, pure, Except.pure]
        simp; omega
      · have hk : n - q.length = (n - (q ++ [v]).length) + 1 := by simp; omega
        rw [hk, List.take_succ_cons]
        simpa using h₂
    · have hq' : q.length = n := by have := h.qle; omega
      refine ⟨r, ?_, ?_, rfl⟩
      · unfold pushMany
        simp [h.push_reject v hq', bind, Except.bind, pure, Except.pure, hq']
      · simpa [hq'] using h

theorem newest_push (n : Nat) (q : List α) (v : α) (vs : List α) (hn : 0 < n) (hq : q.length ≤ n) :
    Queue.newest n ((if q.length < n then q ++ [v] else q.drop 1 ++ [v]) ++ vs) =
      Queue.newest n (q ++ v :: vs) := by
  unfold Queue.newest
  split
  · simp
  · have : q.length = n := by omega
    simp only [List.length_append, List.length_drop, List.length_cons, List.length_nil]
    rw [List.append_assoc]
    have h1 : q.drop 1 ++ ([v] ++ vs) = (q ++ v :: vs).drop 1 := by
      rw [List.drop_append_of_le_length (by omega)]; simp
    rw [h1, List.drop_drop]
    congr 1; omega

theorem Rep.pushMany_true {n : Nat} : ∀ (vs : List α) {r : Ring α} {q : List α}, Rep n r q →
    ∃ r', r.pushMany vs true = .ok (vs.length, r') ∧ Rep n r' (Queue.newest n (q ++ vs))
  | [], r, q, h => ⟨r, by simp [pushMany], by
      have := h.qle
      simpa [Queue.newest, show q.length - n = 0 by omega] using h⟩
  | v :: vs, r, q, h => by
    have hn := newest_push n q v vs h.pos h.qle
    by_cases hq : q.length < n
    · obtain ⟨r₁, e₁, h₁, -⟩ := h.push_space v true hq
      obtain ⟨r₂, e₂, h₂⟩ := Rep.pushMany_true vs h₁
      refine ⟨r₂, ?_, ?_⟩
      · unfold pushMany
        simp [e₁, e₂, bind, Except.bind, pure, Except.pure]
      · rw [if_pos hq] at hn; rw [← hn]; exact h₂
    · have hq' : q.length = n := by have := h.qle; omega
      obtain ⟨r₁, e₁, h₁, -⟩ := h.push_rollover v hq'
      obtain ⟨r₂, e₂, h₂⟩ := Rep.pushMany_true vs h₁
      refine ⟨r₂, ?_, ?_⟩
      · unfold pushMany
        simp [e₁, e₂, bind, Except.bind, pure, Except.pure]
      · rw [if_neg hq] at hn; rw [← hn]; exact h₂

theorem Rep.popLoop {n : Nat} : ∀ (k : Nat) {r : Ring α} {q : List α} (dst : List α) (i : Nat),
    Rep n r q → k ≤ q.length → i + k ≤ dst.length →
    ∃ r', r.popLoop dst i k = .ok (dst.take i ++ q.take k ++ dst.drop (i + k), r') ∧ Rep n r' (q.drop k) ∧
      (0 < k → r'.overwritten = 0) ∧ (k = 0 → r' = r)
  | 0, r, q, dst, i, h, _, _ => ⟨r, by simp [Ring.popLoop], by simpa using h, by omega, fun _ => rfl⟩
  | k + 1, r, [], dst, i, h, hk, _ => by simp at hk
  | k + 1, r, v :: q, dst, i, h, hk, hd => by
    obtain ⟨r₁, e₁, h₁, o₁⟩ := h.pop_some
    obtain ⟨r₂, e₂, h₂, o₂, o₃⟩ := Rep.popLoop k (dst.set i v) (i + 1) h₁ (by simpa using hk) (by simp; omega)
    refine ⟨r₂, ?_, by simpa using h₂, fun _ => ?_, by omega⟩
    · unfold Ring.popLoop
      simp only [e₁, bind, Except.bind, pure, Except.pure]
      rw [wr_ok (by omega)]
      simp only [e₂]
      congr 2
      have h1 : (dst.set i v).take (i + 1) = dst.take i ++ [v] := by
        rw [List.take_add_one, List.getElem?_set_self (by omega), List.take_set_of_le (by omega)]
        simp
      have h2 : (dst.set i v).drop (i + 1 + k) = dst.drop (i + (k + 1)) := by
        rw [List.drop_set_of_lt (by omega)]
        congr 1; omega
      rw [h1, h2]
      simp
    · by_cases hk0 : 0 < k
      · exact o₂ hk0
      · have := o₃ (by omega)
        rw [this]; exact o₁

theorem Rep.popMany_enough {n : Nat} {r : Ring α} {q : List α} (h : Rep n r q) (dst : List α) (k : Nat)
    (hk : k ≤ q.length) (hd : k ≤ dst.length) :
    ∃ r', r.popMany dst k = .ok ((k, q.take k ++ dst.drop k), r') ∧ Rep n r' (q.drop k) := by
  obtain ⟨r', e, h', -⟩ := Rep.popLoop k dst 0 h hk (by omega)
  refine ⟨r', ?_, h'⟩
  unfold popMany
  rw [h.used]
  simp [show ¬ q.length < k by omega, e, bind, Except.bind, pure, Except.pure]

theorem Rep.popMany_short {n : Nat} {r : Ring α} {q : List α} (h : Rep n r q) (dst : List α) (k : Nat)
    (hk : q.length < k) : r.popMany dst k = .ok ((0, dst), r) := by
  unfold popMany
  rw [h.used]
  simp [hk, pure, Except.pure]

/-- `drop_last(k)`, when it does not hit the `k = 0` on a full buffer case. -/
theorem Rep.dropLast {n : Nat} {r : Ring α} {q : List α} (h : Rep n r q) (k : Nat)
    (hk : 0 < k ∨ q.length < n) :
    ∃ r', r.dropLast k = .ok (min k q.length, r') ∧ Rep n r' (q.take (q.length - k)) ∧
      r'.overwritten = usub r.overwritten (min k q.length) := by
  have hu := h.used
  have hl := h.headLt
  obtain ⟨h1, h2, h3, h4, h5, h6, h7⟩ := h
  have hle : min q.length k ≤ n := by omega
  have hmod : umod (min q.length k) r.buf.length = .ok (if min q.length k = n then 0 else min q.length k) := by
    rw [h1, umod_eq h2 (by omega)]; unfold wrap; congr 1; repeat' split
    all_goals omega
  refine ⟨{ r with head := wrap n (r.tail + (q.length - k)), isFull := false,
                   overwritten := usub r.overwritten (min k q.length) }, ?_, ?_, rfl⟩
  · unfold Ring.dropLast Ring.retractHead
    simp only [hu, hmod, bind, Except.bind, pure, Except.pure]
    have hm2 : umod (r.head + r.buf.length - (if min q.length k = n then 0 else min q.length k)) r.buf.length
        = .ok (wrap n (r.tail + (q.length - k))) := by
      rw [h1, umod_eq h2 (by split <;> omega), h5]
      congr 1
      unfold wrap; repeat' split
      all_goals omega
    rw [hm2]
    simp only [Nat.min_comm k q.length, Nat.zero_max]
  · have hlen : (q.take (q.length - k)).length = q.length - k := by simp
    refine ⟨h1, h2, h3, by rw [hlen]; omega, by rw [hlen], ?_, ?_⟩
    · rw [hlen]; simp; omega
    · intro i hi
      rw [hlen] at hi
      have := h7 i (by omega)
      simpa using this

/-- `drop_last(0)` on a full buffer returns 0 and empties the buffer. -/
theorem Rep.dropLast_zero_full {n : Nat} {r : Ring α} {q : List α} (h : Rep n r q) (hq : q.length = n) :
    ∃ r', r.dropLast 0 = .ok (0, r') ∧ Rep n r' [] := by
  have hu := h.used
  have hl := h.headLt
  obtain ⟨h1, h2, h3, h4, h5, h6, h7⟩ := h
  have hmod : umod 0 r.buf.length = .ok 0 := by
    rw [h1, umod_eq h2 (by omega)]; unfold wrap; split <;> simp
  have hm2 : umod (r.head + r.buf.length) r.buf.length = .ok r.head := by
      rw [h1, umod_eq h2 (by omega)]
      congr 1
      unfold wrap; repeat' split
      all_goals omega
  refine ⟨{ r with isFull := false, overwritten := usub r.overwritten 0 }, ?_, ?_⟩
  · unfold Ring.dropLast Ring.retractHead
    simp [hmod, hm2, bind, Except.bind, pure, Except.pure]
  · refine ⟨h1, h2, h3, by simp, ?_, by simp; omega, by simp⟩
    show r.head = wrap n (r.tail + 0)
    rw [h5]; unfold wrap; repeat' split
    all_goals omega

theorem Rep.dropFirst {n : Nat} {r : Ring α} {q : List α} (h : Rep n r q) (k : Nat)
    (hk : 0 < k ∨ q.length < n) :
    ∃ r', r.dropFirst k = .ok (min k q.length, r') ∧ Rep n r' (q.drop k) := by
  have hu := h.used
  have hl := h.headLt
  obtain ⟨h1, h2, h3, h4, h5, h6, h7⟩ := h
  have hmod : umod (r.tail + min q.length k) r.buf.length = .ok (wrap n (r.tail + min q.length k)) := by
    rw [h1, umod_eq h2 (by omega)]
  refine ⟨{ r with tail := wrap n (r.tail + min k q.length), isFull := false,
                   overwritten := min r.overwritten (usub (usedSpace
                     { r with tail := wrap n (r.tail + min k q.length), isFull := false }) (min k q.length)) },
          ?_, ?_⟩
  · unfold Ring.dropFirst Ring.advanceTail
    simp only [hu, hmod, bind, Except.bind, pure, Except.pure]
    rw [Nat.min_comm q.length k]
  · have hlen : (q.drop k).length = q.length - k := by simp
    refine ⟨h1, h2, wrap_lt (by omega), by rw [hlen]; omega, ?_, ?_, ?_⟩
    · rw [hlen]; show r.head = wrap n (wrap n (r.tail + min k q.length) + (q.length - k))
      rw [h5]; unfold wrap; repeat' split
      all_goals omega
    · rw [hlen]; simp; omega
    · intro i hi
      rw [hlen] at hi
      have := h7 (k + i) (by omega)
      show r.buf[wrap n (wrap n (r.tail + min k q.length) + i)]? = _
      have he : wrap n (wrap n (r.tail + min k q.length) + i) = wrap n (r.tail + (k + i)) := by
        unfold wrap; repeat' split
        all_goals omega
      rw [he, this]; simp

theorem Rep.dropFirst_zero_full {n : Nat} {r : Ring α} {q : List α} (h : Rep n r q) (hq : q.length = n) :
    ∃ r', r.dropFirst 0 = .ok (0, r') ∧ Rep n r' [] := by
  have hl := h.headLt
  obtain ⟨h1, h2, h3, h4, h5, h6, h7⟩ := h
  have hmod : umod (r.tail + 0) r.buf.length = .ok r.tail := by
    rw [h1, umod_eq h2 (by omega)]; unfold wrap; congr 1; split <;> omega
  refine ⟨{ r with isFull := false,
                   overwritten := min r.overwritten (usub (usedSpace { r with isFull := false }) 0) }, ?_, ?_⟩
  · unfold Ring.dropFirst Ring.advanceTail
    simp only [Nat.min_zero, hmod, bind, Except.bind, pure, Except.pure]
  · refine ⟨h1, h2, h3, by simp, ?_, by simp; omega, by simp⟩
    show r.head = wrap n (r.tail + 0)
    rw [h5]; unfold wrap; repeat' split
    all_goals omega

theorem Rep.clear {n : Nat} {r : Ring α} {q : List α} (h : Rep n r q) :
    ∃ r', r.clear = .ok r' ∧ Rep n r' [] := by
  unfold Ring.clear
  rw [h.used]
  have hp := h.pos
  obtain ⟨r', e, h', -⟩ := h.dropLast q.length (by omega)
  refine ⟨r', ?_, by simpa using h'⟩
  simp [e, bind, Except.bind, pure, Except.pure]

theorem Rep.create {n : Nat} (hn : 0 < n) (b : Build) (init : α) :
    ∃ r, create b n init = .ok r ∧ Rep n r [] ∧ r.overwritten = 0 := by
  refine ⟨{ buf := List.replicate n init, head := 0, tail := 0, overwritten := 0, isFull := false }, ?_, ?_, ?_⟩
  · unfold Ring.create spnAssert
    cases b <;> simp [hn, bind, Except.bind, pure, Except.pure]
  · refine ⟨by simp, hn, hn, by simp, ?_, by simp; omega, by simp⟩
    simp [wrap]
  · rfl

/-- One step of the simulation. -/
theorem Rep.step {n : Nat} {r : Ring α} {q : List α} (h : Rep n r q) (op : Op α)
    (hc : Queue.CallerOk op) (hd : Queue.NotDropZero op ∨ q.length < n) :
    ∃ r', r.step op = .ok ((Queue.step n q op).1, r') ∧ Rep n r' (Queue.step n q op).2 := by
  have hqle := h.qle
  cases op with
  | push v ro =>
    by_cases hq : q.length < n
    · obtain ⟨r', e, h', -⟩ := h.push_space v ro hq
      refine ⟨r', ?_, ?_⟩
      · simp [Ring.step, Queue.step, e, hq, bind, Except.bind, pure, Except.pure]
      · simpa [Queue.step, hq] using h'
    · have hq' : q.length = n := by omega
      cases ro with
      | false =>
        refine ⟨r, ?_, ?_⟩
        · simp [Ring.step, Queue.step, h.push_reject v hq', hq, bind, Except.bind, pure, Except.pure]
        · simpa [Queue.step, hq] using h
      | true =>
        obtain ⟨r', e, h', -⟩ := h.push_rollover v hq'
        refine ⟨r', ?_, ?_⟩
        · simp [Ring.step, Queue.step, e, hq, bind, Except.bind, pure, Except.pure]
        · simpa [Queue.step, hq] using h'
  | pushMany vs ro =>
    cases ro with
    | false =>
      obtain ⟨r', e, h', -⟩ := Rep.pushMany_false vs h
      exact ⟨r', by simp [Ring.step, Queue.step, e, bind, Except.bind, pure, Except.pure],
        by simpa [Queue.step] using h'⟩
    | true =>
      obtain ⟨r', e, h'⟩ := Rep.pushMany_true vs h
      exact ⟨r', by simp [Ring.step, Queue.step, e, bind, Except.bind, pure, Except.pure],
        by simpa [Queue.step] using h'⟩
  | pop =>
    cases q with
    | nil =>
      exact ⟨r, by simp [Ring.step, Queue.step, h.pop_none, bind, Except.bind, pure, Except.pure],
        by simpa [Queue.step] using h⟩
    | cons v q =>
      obtain ⟨r', e, h', -⟩ := h.pop_some
      exact ⟨r', by simp [Ring.step, Queue.step, e, bind, Except.bind, pure, Except.pure],
        by simpa [Queue.step] using h'⟩
  | popMany dst k =>
    by_cases hk : k ≤ q.length
    · obtain ⟨r', e, h'⟩ := h.popMany_enough dst k hk hc
      exact ⟨r', by simp [Ring.step, Queue.step, e, hk, bind, Except.bind, pure, Except.pure],
        by simpa [Queue.step, hk] using h'⟩
    · have e := h.popMany_short dst k (by omega)
      exact ⟨r, by simp [Ring.step, Queue.step, e, hk, bind, Except.bind, pure, Except.pure],
        by simpa [Queue.step, hk] using h⟩
  | peekAt i =>
    exact ⟨r, by simp [Ring.step, Queue.step, h.peek, bind, Except.bind, pure, Except.pure],
      by simpa [Queue.step] using h⟩
  | dropLast k =>
    obtain ⟨r', e, h', -⟩ := h.dropLast k hd
    exact ⟨r', by simp [Ring.step, Queue.step, e, bind, Except.bind, pure, Except.pure],
      by simpa [Queue.step] using h'⟩
  | dropFirst k =>
    obtain ⟨r', e, h'⟩ := h.dropFirst k hd
    exact ⟨r', by simp [Ring.step, Queue.step, e, bind, Except.bind, pure, Except.pure],
      by simpa [Queue.step] using h'⟩
  | clear =>
    obtain ⟨r', e, h'⟩ := h.clear
    exact ⟨r', by simp [Ring.step, Queue.step, e, bind, Except.bind, pure, Except.pure],
      by simpa [Queue.step] using h'⟩
  | usedSpace =>
    exact ⟨r, by simp [Ring.step, Queue.step, h.used, pure, Except.pure], by simpa [Queue.step] using h⟩
  | freeSpace =>
    exact ⟨r, by simp [Ring.step, Queue.step, h.free, pure, Except.pure], by simpa [Queue.step] using h⟩
  | empty =>
    refine ⟨r, ?_, by simpa [Queue.step] using h⟩
    simp only [Ring.step, Queue.step, h.emptyEq, pure, Except.pure]
    congr 3
  | full =>
    refine ⟨r, ?_, by simpa [Queue.step] using h⟩
    simp only [Ring.step, Queue.step, h.fullEq, pure, Except.pure]
    congr 3
  | capacity =>
    exact ⟨r, by simp [Ring.step, Queue.step, Ring.capacity, h.len, pure, Except.pure],
      by simpa [Queue.step] using h⟩

/-- Simulation over histories without `drop_first(0)` / `drop_last(0)`. -/
theorem Rep.run {n : Nat} : ∀ (ops : List (Op α)) {r : Ring α} {q : List α}, Rep n r q →
    (∀ op ∈ ops, Queue.CallerOk op) → (∀ op ∈ ops, Queue.NotDropZero op) →
    ∃ r', r.run ops = .ok ((Queue.run n q ops).1, r') ∧ Rep n r' (Queue.run n q ops).2
  | [], r, q, h, _, _ => ⟨r, rfl, h⟩
  | op :: ops, r, q, h, hc, hd => by
    obtain ⟨r₁, e₁, h₁⟩ := h.step op (hc op (by simp)) (.inl (hd op (by simp)))
    obtain ⟨r₂, e₂, h₂⟩ := Rep.run ops h₁ (fun o ho => hc o (by simp [ho])) (fun o ho => hd o (by simp [ho]))
    exact ⟨r₂, by simp [Ring.run, Queue.run, e₁, e₂, bind, Except.bind, pure, Except.pure],
      by simpa [Queue.run] using h₂⟩

/-- Whatever the call, a state that represents some queue goes to a state that represents some queue,
unless the call faults. -/
theorem Rep.step_any {n : Nat} {r : Ring α} {q : List α} (h : Rep n r q) (op : Op α) {o r'}
    (e : r.step op = .ok (o, r')) : ∃ q', Rep n r' q' := by
  have hqle := h.qle
  by_cases hc : Queue.CallerOk op
  · by_cases hd : Queue.NotDropZero op ∨ q.length < n
    · obtain ⟨r₁, e₁, h₁⟩ := h.step op hc hd
      rw [e] at e₁
      cases e₁
      exact ⟨_, h₁⟩
    · have hq : q.length = n := by omega
      have hnd : ¬ Queue.NotDropZero op := fun x => hd (.inl x)
      cases op with
      | dropLast k =>
        have hk : k = 0 := by simp [Queue.NotDropZero] at hnd; exact hnd
        subst hk
        obtain ⟨r₁, e₁, h₁⟩ := h.dropLast_zero_full hq
        simp only [Ring.step, e₁, bind, Except.bind, pure, Except.pure] at e
        cases e
        exact ⟨_, h₁⟩
      | dropFirst k =>
        have hk : k = 0 := by simp [Queue.NotDropZero] at hnd; exact hnd
        subst hk
        obtain ⟨r₁, e₁, h₁⟩ := h.dropFirst_zero_full hq
        simp only [Ring.step, e₁, bind, Except.bind, pure, Except.pure] at e
        cases e
        exact ⟨_, h₁⟩
      | _ => exact absurd trivial hnd
  · cases op with
    | popMany dst k =>
      by_cases hk : k ≤ q.length
      · exfalso
        simp only [Queue.CallerOk] at hc
        -- the loop writes past the caller's block
        have key : ∀ (k : Nat) {r : Ring α} {q : List α} (dst : List α) (i : Nat), Rep n r q →
            k ≤ q.length → dst.length < i + k → i ≤ dst.length → r.popLoop dst i k = .error .ub := by
          intro k
          induction k with
          | zero => intro r q dst i _ _ h1 h2; omega
          | succ k ih =>
            intro r q dst i hr hkq h1 h2
            cases q with
            | nil => simp at hkq
            | cons v q =>
              obtain ⟨r₁, e₁, h₁, -⟩ := hr.pop_some
              unfold Ring.popLoop
              simp only [e₁, bind, Except.bind]
              by_cases hi : i < dst.length
              · rw [wr_ok hi]
                exact ih _ _ h₁ (by simpa using hkq) (by simp; omega) (by simp; omega)
              · unfold wr
                rw [if_neg hi]
        have := key k dst 0 h hk (by omega) (by omega)
        simp only [Ring.step, Ring.popMany, h.used, show ¬ q.length < k by omega, this, bind, Except.bind,
          if_false] at e
        cases e
      · have e₁ := h.popMany_short dst k (by omega)
        simp only [Ring.step, e₁, bind, Except.bind, pure, Except.pure] at e
        cases e
        exact ⟨_, h⟩
    | _ => exact absurd trivial hc

theorem Rep.run_any {n : Nat} : ∀ (ops : List (Op α)) {r : Ring α} {q : List α}, Rep n r q →
    ∀ {outs r'}, r.run ops = .ok (outs, r') → ∃ q', Rep n r' q'
  | [], r, q, h, outs, r', e => by cases e; exact ⟨q, h⟩
  | op :: ops, r, q, h, outs, r', e => by
    unfold Ring.run at e
    cases hs : r.step op with
    | error f => simp [hs, bind, Except.bind] at e
    | ok x =>
      obtain ⟨o, r₁⟩ := x
      obtain ⟨q₁, h₁⟩ := h.step_any op hs
      simp only [hs, bind, Except.bind] at e
      cases hr : r₁.run ops with
      | error f => simp [hr] at e
      | ok y =>
        obtain ⟨os, r₂⟩ := y
        simp only [hr, pure, Except.pure] at e
        cases e
        exact Rep.run_any ops h₁ hr

theorem Reachable.rep {n : Nat} {r : Ring α} (hn : 0 < n) (h : Reachable n r) : ∃ q, Rep n r q := by
  obtain ⟨b, init, r₀, ops, outs, e₀, e⟩ := h
  obtain ⟨r₁, e₁, h₁, -⟩ := Rep.create hn b init
  rw [e₀] at e₁
  cases e₁
  exact Rep.run_any ops h₁ e

end Ring
end Spine
