import Verif.Props.Vector
/-!
# Properties C120, C121: `Vector` outside its preconditions, and exact accounts of `pop_back`, `remove` and `front`

`Seq.step n q op = none` says that the call `op` breaks its precondition on a sequence `q` of capacity `n`.
-/

namespace Spine

variable {α : Type} {b : Build} {e : Elem α}

attribute [local irreducible] usub uadd sizeMod

open Vec

unseal usub sizeMod in
theorem usub_succ {k : Nat} (h : k < sizeMod) : usub k (k + 1) = sizeMod - 1 := by
  have h' : k < sizeMod := h
  rw [usub, if_neg (by omega), show sizeMod = sizeMod from rfl]
  omega

/-! ## C120: debug builds stop on misuse -/

/-- C120 (partial). In a debug build every call that breaks its precondition stops with a failed assertion, on every reachable vector.
Missing: `emplace_front`, `back`, `front` and `remove`, which do not check (the counterexamples below). -/
theorem C120_debug_partial {v : Vec α} (hv : Vec.Reachable .debug e v) {q : List α} (hq : v.Holds q) (op : Vec.Op α) (hno : Seq.step v.maxSize q op = none)
    (hop : (∀ x, op ≠ .emplaceFront x) ∧ op ≠ .back ∧ op ≠ .front ∧ ∀ i, op ≠ .remove i) : v.step .debug e op = .error .assertFailed := by
  obtain ⟨pre, post, log, rfl, hl, hs⟩ := hv.rep' hq
  have hf : Fits pre q post := by simp only [Fits]; omega
  have hm : (mk' pre q post log).maxSize = pre.length + q.length + post.length := maxSize_mk'
  have hsz : (mk' pre q post log).size = q.length := size_mk' hf
  have ht : (mk' pre q post log).tail = pre.length + q.length := rfl
  have hh : (mk' pre q post log).head = pre.length := rfl
  have hcomp : ¬ q.length < pre.length + q.length + post.length → compact .debug e (mk' pre q post log) = .ok (mk' pre q post log) := by
    intro h
    rw [compact, if_neg]
    rw [hh]
    omega
  have hpb : ∀ x, ¬ q.length < pre.length + q.length + post.length → pushBack .debug e (mk' pre q post log) x = .error .assertFailed := by
    intro x h
    rw [pushBack, hcomp h, res_bind_ok, ht, hm, decide_eq_false (by omega)]
    rfl
  have hpf : ∀ x, ¬ q.length < pre.length + q.length + post.length → pushFront .debug e (mk' pre q post log) x = .error .assertFailed := by
    intro x h
    rw [pushFront, hsz, hm, decide_eq_false h]
    rfl
  rw [hm] at hno
  cases op with
  | pushBack x =>
    have h : ¬ q.length < pre.length + q.length + post.length := by intro h; simp [Seq.step, h] at hno
    simp only [Vec.step, hpb x h, res_bind_error]
  | emplaceBack x =>
    have h : ¬ q.length < pre.length + q.length + post.length := by intro h; simp [Seq.step, h] at hno
    simp only [Vec.step, emplaceBack_eq, hpb x h, res_bind_error]
  | pushFront x =>
    have h : ¬ q.length < pre.length + q.length + post.length := by intro h; simp [Seq.step, h] at hno
    simp only [Vec.step, hpf x h, res_bind_error]
  | emplaceFront x => exact absurd rfl (hop.1 x)
  | insert i x =>
    have h : ¬ q.length < pre.length + q.length + post.length := by intro h; simp [Seq.step, h] at hno
    simp only [Vec.step, Vec.insert, hsz, hm, decide_eq_false h, spnAssert_debug_false, res_bind_error]
  | popFront c =>
    cases q with
    | nil => simp only [Vec.step, popFront, hsz, List.length_nil, gt_iff_lt, Nat.lt_irrefl, decide_false, spnAssert_debug_false, res_bind_error]
    | cons x q => simp [Seq.step] at hno
  | popBack c =>
    cases q with
    | nil => simp only [Vec.step, popBack, hsz, List.length_nil, gt_iff_lt, Nat.lt_irrefl, decide_false, spnAssert_debug_false, res_bind_error]
    | cons x q => simp [Seq.step, List.getLast?_cons] at hno
  | remove i => exact absurd rfl (hop.2.2.2 i)
  | put i x =>
    have h : ¬ i < q.length := by intro h; simp [Seq.step, h] at hno
    simp only [Vec.step, put, hh, ht, decide_eq_false (show ¬ pre.length + i < pre.length + q.length by omega), spnAssert_debug_false, res_bind_error]
  | get i =>
    have h : ¬ i < q.length := by intro h; simp [Seq.step, h] at hno
    simp only [Vec.step, Vec.get, hh, ht, decide_eq_false (show ¬ pre.length + i < pre.length + q.length by omega), spnAssert_debug_false, res_bind_error]
  | peekFront =>
    cases q with
    | nil => simp only [Vec.step, peekFront, hsz, List.length_nil, gt_iff_lt, Nat.lt_irrefl, decide_false, spnAssert_debug_false, res_bind_error]
    | cons x q => simp [Seq.step] at hno
  | peekBack =>
    cases q with
    | nil => simp only [Vec.step, peekBack, hsz, List.length_nil, gt_iff_lt, Nat.lt_irrefl, decide_false, spnAssert_debug_false, res_bind_error]
    | cons x q => simp [Seq.step, List.getLast?_cons] at hno
  | back => exact absurd rfl hop.2.1
  | front => exact absurd rfl hop.2.2.1
  | clear | fill | size | empty | full | maxSize => simp [Seq.step] at hno

unseal usub uadd sizeMod in
/-- A vector and a call that meet the hypotheses: a fourth `push_back` on a vector of capacity 3. -/
example : ∃ v, (Vec.create natElem 3).run .debug natElem [.pushBack 1, .pushBack 2, .pushBack 3] = .ok ([.unit, .unit, .unit], v) ∧
    Seq.step 3 [1, 2, 3] (.pushBack 4) = none ∧ v.step .debug natElem (.pushBack 4) = .error .assertFailed := ⟨_, rfl, rfl, rfl⟩

/-- C120 is false for `emplace_front`: on every full vector it writes outside the storage, in debug builds, too. -/
theorem C120_emplace_front_counterexample {v : Vec α} (hv : Vec.Reachable b e v) {q : List α} (hq : v.Holds q) (hfull : q.length = v.maxSize) (x : α) :
    v.emplaceFront e x = .error .ub := by
  obtain ⟨pre, post, log, rfl, hl, hs⟩ := hv.rep' hq
  have hf : Fits pre q post := by simp only [Fits]; omega
  rw [maxSize_mk'] at hfull
  have hp : pre = [] := List.length_eq_zero_iff.mp (by omega)
  have hp' : post = [] := List.length_eq_zero_iff.mp (by omega)
  subst hp hp'
  rw [emplaceFront, if_neg (by simp [mk']), size_mk' hf]
  by_cases h0 : q.length = 0
  · obtain rfl := List.length_eq_zero_iff.mp h0
    rfl
  · have : memmove (mk' [] q [] log).store ((mk' [] q [] log).head + 1) (mk' [] q [] log).head q.length = .error .ub := by
      rw [memmove, if_neg h0, if_neg (by simp [mk'])]
    rw [this]
    rfl

unseal usub uadd sizeMod in
/-- C120 is false for `back()` and `front()` of an empty vector (they give an element that was removed), and for `remove` of the index behind the
last element (the last element is removed). -/
theorem C120_ends_counterexample :
    (∃ v, (Vec.create natElem 3).run .debug natElem [.pushBack 1, .popBack false] = .ok ([.unit, .val 1], v) ∧ v.Holds [] ∧ v.back = .ok 1 ∧ v.front = .ok 1) ∧
    ∃ v, (Vec.create natElem 3).run .debug natElem [.pushBack 1, .pushBack 2] = .ok ([.unit, .unit], v) ∧ Seq.step 3 [1, 2] (.remove 2) = none ∧
      ∃ v', v.remove .debug natElem 2 = .ok (2, v') :=
  ⟨⟨_, rfl, ⟨rfl, fun i h => absurd h (Nat.not_lt_zero i)⟩, rfl, rfl⟩, _, rfl, rfl, _, rfl⟩

/-! ## C121: full and empty vectors in release builds -/

/-- C121 (partial). In a release build `push_back`, `emplace_back` and `insert` behind the last element change nothing on a full vector.
Missing: the other insertions, `C121_overflow_counterexample`. -/
theorem C121_full_partial {v : Vec α} (hv : Vec.Reachable .release e v) {q : List α} (hq : v.Holds q) (hfull : q.length = v.maxSize) (x : α) :
    v.pushBack .release e x = .ok v ∧ v.emplaceBack .release e x = .ok v ∧ ∀ i, 0 < i → q.length ≤ i → v.insert .release e i x = .ok v := by
  obtain ⟨pre, post, log, rfl, hl, hs⟩ := hv.rep' hq
  have hf : Fits pre q post := by simp only [Fits]; omega
  rw [maxSize_mk'] at hfull
  have hp : pre = [] := List.length_eq_zero_iff.mp (by omega)
  have hp' : post = [] := List.length_eq_zero_iff.mp (by omega)
  subst hp hp'
  have hpb : pushBack .release e (mk' [] q [] log) x = .ok (mk' [] q [] log) := by
    have hc : compact .release e (mk' [] q [] log) = .ok (mk' [] q [] log) := by rw [compact, if_neg (by simp [mk'])]
    have ht : ¬ (mk' [] q [] log).tail < (mk' [] q [] log).maxSize := by rw [maxSize_mk']; simp [mk']
    rw [pushBack, hc, res_bind_ok, spnAssert_release, res_bind_ok, if_neg ht]
    rfl
  refine ⟨hpb, hpb, fun i h0 hi => ?_⟩
  rw [Vec.insert, spnAssert_release, res_bind_ok, if_neg (by omega), if_pos (by simp [mk']; omega), hpb]

/-- C121 is false for insertions elsewhere: on every full vector `push_front`, `emplace_front` and `insert` at the front or in the middle write outside the
storage. -/
theorem C121_overflow_counterexample {v : Vec α} (hv : Vec.Reachable .release e v) {q : List α} (hq : v.Holds q) (hfull : q.length = v.maxSize) (x : α) :
    v.pushFront .release e x = .error .ub ∧ v.emplaceFront e x = .error .ub ∧ v.insert .release e 0 x = .error .ub ∧
    ∀ i, i < q.length → v.insert .release e i x = .error .ub := by
  have h1 := C120_emplace_front_counterexample hv hq hfull x
  have h2 : v.pushFront .release e x = .error .ub := by
    rw [emplaceFront] at h1
    rw [pushFront, spnAssert_release, res_bind_ok, h1]
  have h3 : v.insert .release e 0 x = .error .ub := by rw [Vec.insert, spnAssert_release, res_bind_ok, if_pos rfl, h2]
  refine ⟨h2, h1, h3, fun i hi => ?_⟩
  by_cases h0 : i = 0
  · exact h0 ▸ h3
  obtain ⟨pre, post, log, rfl, hl, hs⟩ := hv.rep' hq
  have hf : Fits pre q post := by simp only [Fits]; omega
  rw [maxSize_mk'] at hfull
  have hp : pre = [] := List.length_eq_zero_iff.mp (by omega)
  have hp' : post = [] := List.length_eq_zero_iff.mp (by omega)
  subst hp hp'
  have hc : compact .release e (mk' [] q [] log) = .ok (mk' [] q [] log) := by rw [compact, if_neg (by simp [mk'])]
  rw [Vec.insert, spnAssert_release, res_bind_ok, if_neg h0, if_neg (by simp [mk']; omega), hc, res_bind_ok, spnAssert_release, res_bind_ok]
  have hu : usub (mk' [] q [] log).tail ((mk' [] q [] log).head + i) = q.length - i := by
    rw [show (mk' [] q [] log).tail = q.length by simp [mk'], show (mk' [] q [] log).head + i = i by simp [mk'], usub_le (Nat.le_of_lt hi) (by simp at hs hl; omega)]
  rw [hu, memmove, if_neg (by omega), if_neg (by simp [mk']; omega)]
  rfl

/-- C121 is false for removals: `pop_front` on an empty vector of a release build leaves one that claims as many elements as a `size_t` can say. -/
theorem C121_underflow_counterexample {v : Vec α} (hv : Vec.Reachable .release e v) (hq : v.Holds []) (c : Bool) {x : α} {v' : Vec α}
    (h : v.popFront .release e c = .ok (x, v')) : v'.size = sizeMod - 1 := by
  obtain ⟨pre, post, log, rfl, hl, hs⟩ := hv.rep' hq
  have hn : ¬ (mk' pre [] post log).tail = (mk' pre [] post log).head + 1 := by simp [mk']
  rw [popFront, spnAssert_release, res_bind_ok] at h
  simp only [if_neg hn] at h
  have hsz : ∀ s l, (⟨s, pre.length + 1, pre.length, l⟩ : Vec α).size = sizeMod - 1 := by
    intro s l
    have : pre.length < sizeMod := by simp at hl; omega
    exact usub_succ this
  cases c with
  | false =>
    rw [rvalue] at h
    simp only [Bool.false_eq_true, if_false] at h
    cases hr : rd (mk' pre [] post log).store (mk' pre [] post log).head with
    | error er => simp [hr] at h
    | ok y =>
      simp only [hr, res_bind_ok, res_pure, Except.ok.injEq, Prod.mk.injEq] at h
      rw [← h.2]
      exact hsz _ _
  | true =>
    rw [rvalue, if_pos rfl, Vec.take] at h
    cases hr : rd (mk' pre [] post log).store (mk' pre [] post log).head with
    | error er => simp [hr] at h
    | ok y =>
      simp only [hr, res_bind_ok, res_pure, Except.ok.injEq, Prod.mk.injEq] at h
      rw [← h.2]
      exact hsz _ _

unseal usub uadd sizeMod in
example : ∃ v', (Vec.create natElem 3).popFront .release natElem true = .ok (0, v') ∧ v'.size = sizeMod - 1 :=
  ⟨_, rfl, show usub 0 1 = sizeMod - 1 by simp [usub]⟩

/-! ## C20, C21, C25: what the code does outside the proved part -/

/-- C20, the rest: on every reachable vector with one element, `pop_back` returns what is in slot 0, that is, the element only if it happens to be there. -/
theorem C20_single_exact {v : Vec α} (hv : Vec.Reachable b e v) {x : α} (hq : v.Holds [x]) (c : Bool) :
    ∃ y v', v.front = .ok y ∧ v.popBack b e c = .ok (y, v') ∧ v'.Holds [] := by
  obtain ⟨pre, post, log, rfl, hl, hs⟩ := hv.rep' hq
  have hf : Fits pre [x] post := by simp only [Fits]; omega
  have hlen : 0 < (pre ++ x :: post).length := by simp; omega
  have hr : rd (pre ++ x :: post) 0 = .ok (pre ++ x :: post)[0] := rd_lt hlen
  refine ⟨(pre ++ x :: post)[0], mk' [] [] ((pre ++ x :: post).set 0 (left e c (pre ++ x :: post)[0])) (logTake c (pre ++ x :: post)[0] log), ?_, ?_, ?_⟩
  · rw [← hr]
    show rd (pre ++ [x] ++ post) 0 = _
    simp
  · rw [popBack_one x c hf, hr, res_bind_ok]
    rfl
  · refine holds_mk' ?_
    simp only [Fits, List.length_nil, List.length_set, List.length_append, List.length_cons] at *
    omega

/-- C21, the rest: `remove(i)` takes its index as that of a slot. On every reachable vector with a free slot behind the window it removes the element in slot `i`,
the `(i - head)`-th; this is the `i`-th only if the window starts at slot 0. -/
theorem C21_slot_exact {v : Vec α} (hv : Vec.Reachable b e v) {q : List α} (hq : v.Holds q) (hroom : v.tail < v.maxSize) {i : Nat} (hi : i < q.length) :
    ∃ v', v.remove b e (v.head + i) = .ok (q[i], v') ∧ v'.Holds (q.take i ++ q.drop (i + 1)) := by
  obtain ⟨pre, post, log, rfl, hl, hs⟩ := hv.rep' hq
  have hf : Fits pre q post := by simp only [Fits]; omega
  have hh : (mk' pre q post log).head = pre.length := rfl
  rw [hh]
  by_cases h0 : i = 0
  · subst h0
    rw [Nat.add_zero, remove_first]
    match q, hi with
    | [x], _ =>
      refine ⟨_, popFront_one x true hf, holds_mk' ?_⟩
      simp only [Fits, List.length_nil, List.length_append, List.length_cons] at *
      omega
    | x :: y :: q, _ =>
      refine ⟨_, popFront_more x y q true hf, holds_mk' ?_⟩
      simp only [Fits, List.length_nil, List.length_append, List.length_cons] at *
      omega
  · match post, hf with
    | [], _ => rw [maxSize_mk'] at hroom; simp [mk'] at hroom
    | p :: post, hf =>
      refine ⟨_, remove_mid hf i h0 hi, holds_mk' ?_⟩
      simp only [Fits, List.length_append, List.length_cons, List.length_take, List.length_drop] at *
      omega

/-- C21, the rest: without a free slot behind the window, removing an element other than the first reads outside the storage; and an index below that of the first slot is
rejected (debug) or ignored (release), although there is an element with this index. -/
theorem C21_outside_counterexample {v : Vec α} (hv : Vec.Reachable b e v) {q : List α} (hq : v.Holds q) :
    (v.tail = v.maxSize → ∀ i, 0 < i → i < q.length → v.remove b e (v.head + i) = .error .ub) ∧
    (∀ i, i < v.head → v.remove .debug e i = .error .assertFailed ∧ v.remove .release e i = .ok (e.zero, v)) := by
  obtain ⟨pre, post, log, rfl, hl, hs⟩ := hv.rep' hq
  have hf : Fits pre q post := by simp only [Fits]; omega
  refine ⟨fun ht i h0 hi => ?_, fun i hi => ?_⟩
  · rw [maxSize_mk'] at ht
    have hp : post = [] := List.length_eq_zero_iff.mp (by have : (mk' pre q post log).tail = pre.length + q.length := rfl; omega)
    subst hp
    have hlt : (mk' pre q [] log).head + i < (mk' pre q [] log).tail := by simp [mk', hi]
    rw [remove_eq (by omega) hlt]
    have hst : (mk' pre q [] log).head + i < (mk' pre q [] log).store.length := by simp [mk', hi]
    have htk : Vec.take e (mk' pre q [] log) ((mk' pre q [] log).head + i) = .ok ((mk' pre q [] log).store[(mk' pre q [] log).head + i],
        { mk' pre q [] log with store := (mk' pre q [] log).store.set ((mk' pre q [] log).head + i) (e.moved (mk' pre q [] log).store[(mk' pre q [] log).head + i]),
                                log := .taken (mk' pre q [] log).store[(mk' pre q [] log).head + i] :: log }) := by
      rw [Vec.take, rd_lt hst]
      rfl
    rw [htk, res_bind_ok]
    have hu : usub (mk' pre q [] log).tail ((mk' pre q [] log).head + i) = q.length - i := by
      have : pre.length + q.length < sizeMod := by simp at hl; omega
      rw [show (mk' pre q [] log).tail = pre.length + q.length from rfl, show (mk' pre q [] log).head + i = pre.length + i from rfl, usub_le (by omega) this]
      omega
    simp only [hu]
    rw [memmove, if_neg (by omega), if_neg (by simp [mk']; omega)]
    rfl
  · have h1 : ¬ i = (mk' pre q post log).head := by omega
    have h2 : ¬ i = (mk' pre q post log).tail := by
      have : (mk' pre q post log).head = pre.length := rfl
      have : (mk' pre q post log).tail = pre.length + q.length := rfl
      omega
    have h3 : ¬ (i > (mk' pre q post log).head ∧ i < (mk' pre q post log).tail) := by omega
    exact ⟨by rw [remove, if_neg h1, if_neg h2, if_neg h3]; rfl, by rw [remove, if_neg h1, if_neg h2, if_neg h3]; rfl⟩

/-- C23, the rest: exactly when `remove` of an element leaves the storage. On every reachable vector, with the index of any element, it does so if and only if there is no free slot
behind the window and the index is above that of the first slot. -/
theorem C23_remove_exact {v : Vec α} (hv : Vec.Reachable b e v) {q : List α} (hq : v.Holds q) {i : Nat} (hi : i < q.length) :
    v.remove b e i = .error .ub ↔ v.tail = v.maxSize ∧ v.head < i := by
  have hout := C21_outside_counterexample hv hq
  obtain ⟨pre, post, log, hveq, hl, hs⟩ := hv.rep' hq
  have ht : v.tail = pre.length + q.length := by rw [hveq]; rfl
  have hh : v.head = pre.length := by rw [hveq]; rfl
  have hm : v.maxSize = pre.length + q.length + post.length := by rw [hveq, maxSize_mk']
  rcases Nat.lt_trichotomy i v.head with h | h | h
  · refine ⟨fun hu => ?_, fun hc => absurd hc.2 (by omega)⟩
    obtain ⟨h1, h2⟩ := hout.2 i h
    cases b
    · rw [h1] at hu; cases hu
    · rw [h2] at hu; cases hu
  · refine ⟨fun hu => ?_, fun hc => absurd hc.2 (by omega)⟩
    have hf : Fits pre q post := by simp only [Fits]; omega
    rw [h, hh, hveq, remove_first] at hu
    match q, hi with
    | [x], _ => rw [popFront_one x true hf] at hu; cases hu
    | x :: y :: q, _ => rw [popFront_more x y q true hf] at hu; cases hu
  · obtain ⟨j, rfl⟩ : ∃ j, i = v.head + j := ⟨i - v.head, by omega⟩
    by_cases hr : v.tail = v.maxSize
    · exact ⟨fun _ => ⟨hr, h⟩, fun _ => hout.1 hr j (by omega) (by omega)⟩
    · refine ⟨fun hu => ?_, fun hc => absurd hc.1 hr⟩
      obtain ⟨v', e', -⟩ := C21_slot_exact hv hq (by omega) (i := j) (by omega)
      rw [e'] at hu
      cases hu

unseal usub uadd sizeMod in
/-- C23 is false: a history within the preconditions that leaves the storage, in both builds. -/
theorem C23_history_counterexample :
    Seq.run 2 [] [.pushBack 1, .pushBack 2, .remove 1] = some ([.unit, .unit, .val 2], [1]) ∧
    (Vec.create natElem 2).run b natElem [.pushBack 1, .pushBack 2, .remove 1] = .error .ub := by
  cases b <;> exact ⟨by decide, rfl⟩

end Spine
