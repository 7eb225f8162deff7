import Verif.Props.RingBuffer
/-!
# C193: a larger ring buffer holds and accepts no less
-/

namespace Spine

variable {α : Type}

namespace Queue

/-- A pop of single elements, or no pop: `pop(buffer, length)` takes all of `length` or nothing. -/
def NotBulkPop : Ring.Op α → Prop
  | .popMany _ _ => False
  | _ => True

/-- Pushes overwrite. -/
def Rollover : Ring.Op α → Prop
  | .push _ ro => ro = true
  | .pushMany _ ro => ro = true
  | _ => True

/-- The second answer to a push accepts no less than the first. -/
def AcceptsNoLess : Ring.Op α → Ring.Out α → Ring.Out α → Prop
  | .push _ _, o, o' => (o = .bool true ∨ o = .bool false) ∧ (o' = .bool true ∨ o' = .bool false) ∧ (o = .bool true → o' = .bool true)
  | .pushMany _ _, o, o' => ∃ k l, o = .num k ∧ o' = .num l ∧ k ≤ l
  | _, _, _ => True

/-- The same for the answers to a history, call by call. -/
def AllNoLess : List (Ring.Op α) → List (Ring.Out α) → List (Ring.Out α) → Prop
  | [], [], [] => True
  | op :: ops, o :: os, o' :: os' => AcceptsNoLess op o o' ∧ AllNoLess ops os os'
  | _, _, _ => False

/-- The contents of a smaller and a larger queue. -/
structure Fits (n m : Nat) (s l : List α) : Prop where
  small : s.length ≤ n
  large : l.length ≤ m
  free : n - s.length ≤ m - l.length
  sub : s.Sublist l

theorem take_sublist {s l : List α} (h : s.Sublist l) {j k : Nat} (hjk : j ≤ k) : (s.take (s.length - k)).Sublist (l.take (l.length - j)) := by
  have e : ∀ (q : List α) (k : Nat), q.take (q.length - k) = (q.reverse.drop k).reverse := fun q k => by rw [List.reverse_drop, List.reverse_reverse, List.length_reverse]
  rw [e, e]
  exact List.reverse_sublist.mpr (drop_sublist (List.reverse_sublist.mpr h) hjk)
where
  drop_sublist {s l : List α} (h : s.Sublist l) {j k : Nat} (hjk : j ≤ k) : (s.drop k).Sublist (l.drop j) := by
    obtain ⟨d, rfl⟩ := Nat.exists_eq_add_of_le hjk
    rw [← List.drop_drop]
    exact (List.drop_sublist _ _).trans (h.drop j)

theorem Fits.step {n m : Nat} (hn : 0 < n) (hnm : n ≤ m) {s l : List α} (h : Fits n m s l) (op : Ring.Op α) (hb : NotBulkPop op) :
    Fits n m (step n s op).2 (step m l op).2 ∧ AcceptsNoLess op (step n s op).1 (step m l op).1 := by
  obtain ⟨h1, h2, h3, h4⟩ := h
  have h5 := h4.length_le
  cases op with
  | popMany => exact hb.elim
  | push v ro =>
    unfold Queue.step AcceptsNoLess
    by_cases c : s.length < n
    · have c' : l.length < m := by omega
      simp only [c, c', if_true]
      refine ⟨⟨by simp; omega, by simp; omega, by simp; omega, h4.append (List.Sublist.refl _)⟩, by simp⟩
    · by_cases c' : l.length < m
      · cases ro
        · simp only [c, c', if_true, if_false, Bool.false_eq_true]
          exact ⟨⟨h1, by simp; omega, by simp; omega, h4.trans (List.sublist_append_left _ _)⟩, by simp⟩
        · simp only [c, c', if_true, if_false]
          refine ⟨⟨by simp; omega, by simp; omega, by simp; omega, ((List.drop_sublist _ _).trans h4).append (List.Sublist.refl _)⟩, by simp⟩
      · cases ro
        · simp only [c, c', if_false, Bool.false_eq_true]
          exact ⟨⟨h1, h2, h3, h4⟩, by simp⟩
        · simp only [c, c', if_true, if_false]
          exact ⟨⟨by simp; omega, by simp; omega, by simp; omega, (h4.drop 1).append (List.Sublist.refl _)⟩, by simp⟩
  | pushMany vs ro =>
    unfold Queue.step AcceptsNoLess
    cases ro
    · simp only [Bool.false_eq_true, if_false]
      refine ⟨⟨by simp; omega, by simp; omega, by simp; omega, h4.append ?_⟩, _, _, rfl, rfl, by omega⟩
      exact (List.take_prefix_take_left h3).sublist
    · simp only [if_true, newest]
      exact ⟨⟨by simp; omega, by simp; omega, by simp; omega, take_sublist.drop_sublist (h4.append (List.Sublist.refl _)) (by simp; omega)⟩, _, _, rfl, rfl, Nat.le_refl _⟩
  | pop =>
    refine ⟨⟨?_, ?_, ?_, h4.tail⟩, trivial⟩ <;> simp only [Queue.step, List.length_tail] <;> omega
  | dropLast k =>
    refine ⟨⟨?_, ?_, ?_, take_sublist h4 (Nat.le_refl k)⟩, trivial⟩ <;> simp only [Queue.step, List.length_take] <;> omega
  | dropFirst k =>
    refine ⟨⟨?_, ?_, ?_, h4.drop k⟩, trivial⟩ <;> simp only [Queue.step, List.length_drop] <;> omega
  | clear => exact ⟨⟨by simp [Queue.step], by simp [Queue.step], by simpa [Queue.step] using hnm, List.Sublist.refl _⟩, trivial⟩
  | peekAt => exact ⟨⟨h1, h2, h3, h4⟩, trivial⟩
  | usedSpace => exact ⟨⟨h1, h2, h3, h4⟩, trivial⟩
  | freeSpace => exact ⟨⟨h1, h2, h3, h4⟩, trivial⟩
  | empty => exact ⟨⟨h1, h2, h3, h4⟩, trivial⟩
  | full => exact ⟨⟨h1, h2, h3, h4⟩, trivial⟩
  | capacity => exact ⟨⟨h1, h2, h3, h4⟩, trivial⟩

theorem Fits.run {n m : Nat} (hn : 0 < n) (hnm : n ≤ m) (ops : List (Ring.Op α)) : ∀ {s l : List α}, Fits n m s l → (∀ op ∈ ops, NotBulkPop op) →
    Fits n m (Queue.run n s ops).2 (Queue.run m l ops).2 ∧ AllNoLess ops (Queue.run n s ops).1 (Queue.run m l ops).1 := by
  induction ops with
  | nil => intro s l h _; exact ⟨h, trivial⟩
  | cons op ops ih =>
    intro s l h hb
    obtain ⟨h1, h2⟩ := h.step hn hnm op (hb op (by simp))
    obtain ⟨h3, h4⟩ := ih h1 fun o ho => hb o (by simp [ho])
    exact ⟨h3, h2, h4⟩

theorem suffix_step {n m : Nat} (hn : 0 < n) {s l : List α} (hnm : n ≤ m) (h : Fits n m s l) (hs : s <:+ l) (op : Ring.Op α) (hb : NotBulkPop op) (hr : Rollover op) :
    (step n s op).2 <:+ (step m l op).2 := by
  have drops : ∀ {s l : List α} {j k : Nat}, s <:+ l → j ≤ k → s.drop k <:+ l.drop j := by
    intro s l j k h hjk
    obtain ⟨a, rfl⟩ := h
    rw [List.drop_append]
    exact (List.drop_suffix_drop_left s (by omega)).trans (List.suffix_append _ _)
  obtain ⟨h1, h2, h3, h4⟩ := h
  have h5 := h4.length_le
  cases op with
  | popMany => exact hb.elim
  | push v ro =>
    cases (hr : ro = true)
    have app : ∀ {a b : List α}, a <:+ b → a ++ [v] <:+ b ++ [v] := fun ⟨t, ht⟩ => ⟨t, by rw [← ht, List.append_assoc]⟩
    unfold Queue.step
    by_cases c : s.length < n
    · have c' : l.length < m := by omega
      simp only [c, c', if_true]
      exact app hs
    · by_cases c' : l.length < m
      · simp only [c, c', if_true, if_false]
        exact app ((List.drop_suffix _ _).trans hs)
      · simp only [c, c', if_true, if_false]
        exact app (drops hs (Nat.le_refl _))
  | pushMany vs ro =>
    cases (hr : ro = true)
    have app : s ++ vs <:+ l ++ vs := by obtain ⟨t, ht⟩ := hs; exact ⟨t, by rw [← ht, List.append_assoc]⟩
    simp only [Queue.step, if_true, newest]
    exact drops app (by simp; omega)
  | pop => simpa only [Queue.step, List.drop_one] using drops (j := 1) hs (Nat.le_refl 1)
  | dropLast k =>
    obtain ⟨a, rfl⟩ := hs
    simp only [Queue.step, List.length_append]
    rw [List.take_append]
    by_cases c : k ≤ s.length
    · exact ⟨a.take (a.length + s.length - k), by congr 2; omega⟩
    · rw [show s.length - k = 0 by omega]; exact List.nil_suffix
  | dropFirst k => exact drops hs (Nat.le_refl k)
  | clear => exact List.suffix_refl _
  | peekAt => exact hs
  | usedSpace => exact hs
  | freeSpace => exact hs
  | empty => exact hs
  | full => exact hs
  | capacity => exact hs

theorem suffix_run {n m : Nat} (hn : 0 < n) (hnm : n ≤ m) (ops : List (Ring.Op α)) : ∀ {s l : List α}, Fits n m s l → s <:+ l → (∀ op ∈ ops, NotBulkPop op) → (∀ op ∈ ops, Rollover op) →
    (Queue.run n s ops).2 <:+ (Queue.run m l ops).2 := by
  induction ops with
  | nil => intro s l _ h _ _; exact h
  | cons op ops ih =>
    intro s l h hs hb hr
    exact ih (h.step hn hnm op (hb op (by simp))).1 (suffix_step hn hnm h hs op (hb op (by simp)) (hr op (by simp))) (fun o ho => hb o (by simp [ho])) fun o ho => hr o (by simp [ho])

end Queue

namespace Ring

theorem callerOk_of_notBulkPop {op : Op α} (h : Queue.NotBulkPop op) : Queue.CallerOk op := by
  cases op <;> first | exact h.elim | trivial

/-- **C193**, partial. The same history on two buffers: the larger one accepts every push that the smaller one accepts, has no less room at the end, and holds what the smaller one holds, in that order.
Missing: bulk pops, and `drop_first(0)` and `drop_last(0)`; see the counterexamples. -/
theorem C193_sizes_partial (n m : Nat) (hn : 0 < n) (hnm : n ≤ m) (b : Build) (init : α) (ops : List (Op α)) (hb : ∀ op ∈ ops, Queue.NotBulkPop op) (hd : ∀ op ∈ ops, Queue.NotDropZero op) :
    ∃ r₀ r r₀' r' outs outs' q q', create b n init = .ok r₀ ∧ r₀.run ops = .ok (outs, r) ∧ r.Holds q ∧ create b m init = .ok r₀' ∧ r₀'.run ops = .ok (outs', r') ∧ r'.Holds q' ∧
      Queue.AllNoLess ops outs outs' ∧ q.Sublist q' ∧ r.freeSpace ≤ r'.freeSpace := by
  have hc : ∀ op ∈ ops, Queue.CallerOk op := fun op h => callerOk_of_notBulkPop (hb op h)
  obtain ⟨r₀, r, e1, e2, e3⟩ := C04_ring_history_with_drops_partial n hn b init ops hc hd
  obtain ⟨r₀', r', e1', e2', e3'⟩ := C04_ring_history_with_drops_partial m (by omega) b init ops hc hd
  have h0 : Queue.Fits n m ([] : List α) [] := ⟨by simp, by simp, by simpa using hnm, List.Sublist.refl _⟩
  obtain ⟨h1, h2⟩ := h0.run hn hnm ops hb
  refine ⟨r₀, r, r₀', r', _, _, _, _, e1, e2, e3, e1', e2', e3', h2, h1.sub, ?_⟩
  have s1 := (C02_ring_space n hn r ⟨b, init, r₀, ops, _, e1, e2⟩).1
  have s2 := (C02_ring_space m (by omega) r' ⟨b, init, r₀', ops, _, e1', e2'⟩).1
  rw [e3.1] at s1
  rw [e3'.1] at s2
  have := h1.free
  omega

/-- **C193**, partial. If all pushes overwrite, the smaller buffer holds the newest elements of the larger one. -/
theorem C193_newest_partial (n m : Nat) (hn : 0 < n) (hnm : n ≤ m) (b : Build) (init : α) (ops : List (Op α)) (hb : ∀ op ∈ ops, Queue.NotBulkPop op) (hd : ∀ op ∈ ops, Queue.NotDropZero op)
    (hr : ∀ op ∈ ops, Queue.Rollover op) :
    ∃ r₀ r r₀' r' outs outs' q q', create b n init = .ok r₀ ∧ r₀.run ops = .ok (outs, r) ∧ r.Holds q ∧ create b m init = .ok r₀' ∧ r₀'.run ops = .ok (outs', r') ∧ r'.Holds q' ∧
      q = q'.drop (q'.length - q.length) := by
  have hc : ∀ op ∈ ops, Queue.CallerOk op := fun op h => callerOk_of_notBulkPop (hb op h)
  obtain ⟨r₀, r, e1, e2, e3⟩ := C04_ring_history_with_drops_partial n hn b init ops hc hd
  obtain ⟨r₀', r', e1', e2', e3'⟩ := C04_ring_history_with_drops_partial m (by omega) b init ops hc hd
  have h0 : Queue.Fits n m ([] : List α) [] := ⟨by simp, by simp, by simpa using hnm, List.Sublist.refl _⟩
  exact ⟨r₀, r, r₀', r', _, _, _, _, e1, e2, e3, e1', e2', e3', List.suffix_iff_eq_drop.mp (Queue.suffix_run hn hnm ops h0 (List.suffix_refl _) hb hr)⟩

/-- **C193**, the gap: a bulk pop that the larger buffer can serve and the smaller one cannot leaves elements in the smaller one only, and later the smaller one accepts what the larger one refuses. -/
theorem C193_bulk_pop_counterexample : ∃ r₀ r r₀' r' : Ring Nat, create .debug 4 0 = .ok r₀ ∧ create .debug 5 0 = .ok r₀' ∧
    r₀.run [.pushMany [1, 2, 3, 4, 5] true, .popMany [0, 0, 0, 0, 0] 5, .pushMany [6, 7, 8] false, .popMany [0, 0, 0, 0] 4, .pushMany [9, 10, 11, 12] false] =
      .ok ([.num 5, .block 0 [0, 0, 0, 0, 0], .num 0, .block 4 [2, 3, 4, 5], .num 4], r) ∧
    r₀'.run [.pushMany [1, 2, 3, 4, 5] true, .popMany [0, 0, 0, 0, 0] 5, .pushMany [6, 7, 8] false, .popMany [0, 0, 0, 0] 4, .pushMany [9, 10, 11, 12] false] =
      .ok ([.num 5, .block 5 [1, 2, 3, 4, 5], .num 3, .block 0 [0, 0, 0, 0], .num 2], r') := ⟨_, _, _, _, rfl, rfl, rfl, rfl⟩

/-- **C193**, the gap: `drop_last(0)` clears the smaller buffer if that is full (C04), and then the smaller buffer accepts what the larger one refuses. -/
theorem C193_drop_zero_counterexample : ∃ r₀ r r₀' r' : Ring Nat, create .debug 2 0 = .ok r₀ ∧ create .debug 3 0 = .ok r₀' ∧
    r₀.run [.push 1 false, .push 2 false, .dropLast 0, .push 3 false, .push 4 false] = .ok ([.bool true, .bool true, .num 0, .bool true, .bool true], r) ∧
    r₀'.run [.push 1 false, .push 2 false, .dropLast 0, .push 3 false, .push 4 false] = .ok ([.bool true, .bool true, .num 0, .bool true, .bool false], r') := ⟨_, _, _, _, rfl, rfl, rfl, rfl⟩

/-- A history that overflows both buffers. -/
example : ∃ r₀ r r₀' r' : Ring Nat, create .debug 2 0 = .ok r₀ ∧ create .debug 3 0 = .ok r₀' ∧
    r₀.run [.pushMany [1, 2, 3, 4] true, .pop, .push 5 true] = .ok ([.num 4, .val (some 3), .bool true], r) ∧
    r₀'.run [.pushMany [1, 2, 3, 4] true, .pop, .push 5 true] = .ok ([.num 4, .val (some 2), .bool true], r') := ⟨_, _, _, _, rfl, rfl, rfl, rfl⟩

end Ring
end Spine
