import Verif.Model.VectorOwn
import Verif.Props.Vector
/-!
# C133: inserting an element of a vector into the same vector
-/

namespace Spine

variable {α : Type} {b : Build} {e : Elem α}

attribute [local irreducible] usub uadd sizeMod

namespace Vec

variable {pre q post : List α} {log : List (Ev α)}

theorem slotOf_at (k : Nat) (hk : k < q.length) : (mk' pre q post log).slotOf b k = .ok (pre.length + k) := by
  have : decide ((mk' pre q post log).head + k < (mk' pre q post log).tail) = true := by simp [mk', hk]
  rw [slotOf, this, spnAssert_true]
  rfl

theorem assignFrom_eq {v : Vec α} {i s : Nat} {x : α} (h : rd v.store s = .ok x) : v.assignFrom i s = v.assign i x := by
  rw [assignFrom, h, res_bind_ok]

theorem pushBackSlot_eq {v w : Vec α} {s : Nat} {x : α} (hc : v.compact b e = .ok w) (h : rd w.store s = .ok x) :
    v.pushBackSlot b e s = v.pushBack b e x := by
  simp only [pushBackSlot, pushBack, hc, res_bind_ok, assignFrom_eq h]

theorem pushFrontSlot_head {v : Vec α} {s : Nat} {x : α} (hv : 0 < v.head) (h : rd v.store s = .ok x) :
    v.pushFrontSlot b e s = v.pushFront b e x := by
  simp only [pushFrontSlot, pushFront, if_pos hv]
  rw [assignFrom_eq (show rd ({ v with head := v.head - 1 } : Vec α).store s = .ok x from h)]

theorem pushFrontSlot_shift {v : Vec α} {s : Nat} {x : α} {st : List α} (hv : ¬ 0 < v.head)
    (hm : (memmove v.store (v.head + 1) v.head v.size >>= fun m => memzero e m v.head 1) = .ok st) (h : rd st s = .ok x) :
    v.pushFrontSlot b e s = v.pushFront b e x := by
  simp only [pushFrontSlot, pushFront, if_neg hv]
  cases h1 : memmove v.store (v.head + 1) v.head v.size with
  | error er => rw [h1] at hm; simp at hm
  | ok m =>
    rw [h1] at hm
    simp only [res_bind_ok] at hm
    simp only [res_bind_ok, hm]
    rw [assignFrom_eq (show rd ({ v with store := st } : Vec α).store s = .ok x from h)]

theorem insertSlot_shift {v w : Vec α} {i s : Nat} {x : α} {st : List α} (hi0 : i ≠ 0) (hi : ¬ v.head + i ≥ v.tail) (hc : v.compact b e = .ok w)
    (hm : (memmove w.store (w.head + i + 1) (w.head + i) (usub w.tail (w.head + i)) >>= fun m => memzero e m (w.head + i) 1) = .ok st) (h : rd st s = .ok x) :
    v.insertSlot b e i s = v.insert b e i x := by
  simp only [insertSlot, insert, if_neg hi0, if_neg hi, hc, res_bind_ok]
  cases h1 : memmove w.store (w.head + i + 1) (w.head + i) (usub w.tail (w.head + i)) with
  | error er => rw [h1] at hm; simp at hm
  | ok m =>
    rw [h1] at hm
    simp only [res_bind_ok] at hm
    simp only [res_bind_ok, hm]
    rw [assignFrom_eq (show rd ({ w with store := st, tail := w.tail + 1 } : Vec α).store s = .ok x from h)]

/-- The block after making room at `i` for a window that begins behind `pre`. -/
theorem made_room {p : α} (i : Nat) (hi : i ≤ q.length) (hb : pre.length + q.length < sizeMod) :
    (memmove (mk' pre q (p :: post) log).store (pre.length + i + 1) (pre.length + i) (usub (pre.length + q.length) (pre.length + i)) >>=
      fun m => memzero e m (pre.length + i) 1) = .ok (pre ++ (q.take i ++ e.zero :: q.drop i) ++ post) := by
  have hu : usub (pre.length + q.length) (pre.length + i) = (q.drop i).length := by
    rw [usub_le (Nat.add_le_add_left hi _) hb, List.length_drop]; omega
  rw [hu]
  have hs := shift_right e (pre ++ q.take i) (q.drop i) post p
  have hlen' : (pre ++ q.take i).length = pre.length + i := by simp; omega
  rw [hlen'] at hs
  have hq : pre ++ q.take i ++ q.drop i ++ p :: post = (mk' pre q (p :: post) log).store := by simp [mk']
  rw [hq] at hs
  rw [hs]
  simp

/-- Reading the block. -/
theorem rd_getD {m : List α} {i : Nat} (h : i < m.length) (z : α) : rd m i = .ok (m[i]?.getD z) := by
  rw [rd_lt h, List.getElem?_eq_getElem h, Option.getD_some]

end Vec

open Vec

/-- C133 (partial): the value of the element is inserted, on every reachable vector with room: at the back if there is room behind the window, at the front if there is room before it, and
elsewhere if there is room behind the window and the element comes before the place. Missing: the other cases (the counterexamples). -/
theorem C133_own_partial {v : Vec α} (hv : Vec.Reachable b e v) {q : List α} (hq : v.Holds q) (hroom : q.length < v.maxSize) {k : Nat} (hk : k < q.length) :
    (v.tail < v.maxSize → ∃ v', v.pushBackOwn b e k = .ok v' ∧ v'.Holds (q ++ [q[k]])) ∧
      (0 < v.head → ∃ v', v.pushFrontOwn b e k = .ok v' ∧ v'.Holds (q[k] :: q)) ∧
      ∀ i, i ≤ q.length → (i = 0 ∧ 0 < v.head ∨ k < i ∧ v.tail < v.maxSize) → ∃ v', v.insertOwn b e i k = .ok v' ∧ v'.Holds (q.take i ++ q[k] :: q.drop i) := by
  obtain ⟨pre, post, log, rfl, hl, hs⟩ := hv.rep' hq
  have hf : Fits pre q post := by simp only [Fits]; omega
  rw [maxSize_mk'] at hroom
  have hrd : rd (mk' pre q post log).store (pre.length + k) = .ok q[k] := rd_window k hk
  have hback : (mk' pre q post log).tail < (mk' pre q post log).maxSize → ∃ v', (mk' pre q post log).pushBackSlot b e (pre.length + k) = .ok v' ∧ v'.Holds (q ++ [q[k]]) := by
    intro h
    cases post with
    | nil => rw [maxSize_mk'] at h; simp [mk'] at h
    | cons p post =>
      refine ⟨_, (pushBackSlot_eq (compact_room p) hrd).trans (pushBack_room p _), holds_mk' ?_⟩
      simp only [Fits, List.length_cons, List.length_append, List.length_nil] at *
      omega
  have hfront : 0 < (mk' pre q post log).head → ∃ v', (mk' pre q post log).pushFrontSlot b e (pre.length + k) = .ok v' ∧ v'.Holds (q[k] :: q) := by
    intro h
    obtain ⟨pre', y, post', h1, h2, _⟩ := front_spec (e := e) (log := log) hf hroom q[k]
    refine ⟨_, (pushFrontSlot_head h hrd).trans ((pushFront_eq hf hroom _).trans h1), holds_mk' ?_⟩
    simp only [Fits, List.length_cons] at *
    omega
  refine ⟨fun h => ?_, fun h => ?_, fun i hi h => ?_⟩
  · rw [pushBackOwn, slotOf_at k hk, res_bind_ok]; exact hback h
  · rw [pushFrontOwn, slotOf_at k hk, res_bind_ok]; exact hfront h
  · rw [insertOwn, slotOf_at k hk, res_bind_ok]
    have ha : decide ((mk' pre q post log).size < (mk' pre q post log).maxSize) = true := by rw [size_mk' hf, maxSize_mk']; simpa using hroom
    rcases h with ⟨rfl, h⟩ | ⟨hki, h⟩
    · rw [insertSlot, ha, spnAssert_true, res_bind_ok, if_pos rfl]
      simpa using hfront h
    · have hi0 : i ≠ 0 := by omega
      by_cases hiq : i = q.length
      · rw [insertSlot, ha, spnAssert_true, res_bind_ok, if_neg hi0, if_pos (by simp [mk']; omega)]
        simpa [hiq] using hback h
      · cases post with
        | nil => rw [maxSize_mk'] at h; simp [mk'] at h
        | cons p post =>
          have hlt : i < q.length := by omega
          have hb : pre.length + q.length < sizeMod := by simp only [Fits] at hf; omega
          have hst := made_room (pre := pre) (q := q) (post := post) (log := log) (e := e) (p := p) i hi hb
          have hrd' : rd (pre ++ (q.take i ++ e.zero :: q.drop i) ++ post) (pre.length + k) = .ok q[k] := by
            have hk' : k < (q.take i ++ e.zero :: q.drop i).length := by simp; omega
            rw [rd_window k hk']
            rw [List.getElem_append_left (by simp; omega)]
            simp
          obtain ⟨pre', p', post', h1, h2, _⟩ := insert_mid (b := b) (e := e) (log := log) hf hroom i hi0 hlt q[k]
          refine ⟨_, (insertSlot_shift hi0 (by simp [mk']; omega) (compact_room p) hst hrd').trans h1, holds_mk' ?_⟩
          simp only [Fits, List.length_cons, List.length_append, List.length_take, List.length_drop] at *
          omega

/-- C133 is false at the front of a vector that begins at the first slot (such as every vector that was only appended to): the element before is inserted instead, or, for the first element, the
value with all bytes zero. -/
theorem C133_front_counterexample {v : Vec α} (hv : Vec.Reachable b e v) {q : List α} (hq : v.Holds q) (hroom : q.length < v.maxSize) (h0 : v.head = 0) {k : Nat} (hk : k < q.length) :
    ∃ v', v.pushFrontOwn b e k = .ok v' ∧ v'.Holds ((if k = 0 then e.zero else q[k - 1]) :: q) := by
  obtain ⟨pre, post, log, rfl, hl, hs⟩ := hv.rep' hq
  have hf : Fits pre q post := by simp only [Fits]; omega
  rw [maxSize_mk'] at hroom
  have hp : pre = [] := List.length_eq_zero_iff.mp h0
  subst hp
  cases post with
  | nil => simp at hroom
  | cons p post =>
    have hb : ([] : List α).length + q.length < sizeMod := by simp only [Fits] at hf; omega
    have hst := made_room (pre := []) (q := q) (post := post) (log := log) (e := e) (p := p) 0 (Nat.zero_le _) hb
    rw [pushFrontOwn, slotOf_at k hk, res_bind_ok]
    have hu : usub (([] : List α).length + q.length) (([] : List α).length + 0) = (mk' [] q (p :: post) log).size := rfl
    rw [hu] at hst
    have hrd : rd ([] ++ (q.take 0 ++ e.zero :: q.drop 0) ++ post) (([] : List α).length + k) = .ok (if k = 0 then e.zero else q[k - 1]) := by
      have hk' : k < (q.take 0 ++ e.zero :: q.drop 0).length := by simp; omega
      rw [rd_window k hk']
      cases k with
      | zero => simp
      | succ k => simp
    obtain ⟨pre', y, post', h1, h2, _⟩ := front_spec (e := e) (log := log) hf hroom (if k = 0 then e.zero else q[k - 1])
    refine ⟨_, (pushFrontSlot_shift (by simp [mk']) hst hrd).trans ((pushFront_eq hf hroom _).trans h1), holds_mk' ?_⟩
    simp only [Fits, List.length_cons] at *
    omega

/-- C133 is false for the element at the place of the insertion and those behind it. -/
theorem C133_insert_counterexample {v : Vec α} (hv : Vec.Reachable b e v) {q : List α} (hq : v.Holds q) (hroom : v.tail < v.maxSize) {i k : Nat} (hi : 0 < i) (hik : i ≤ k)
    (hk : k < q.length) :
    ∃ v', v.insertOwn b e i k = .ok v' ∧ v'.Holds (q.take i ++ (if k = i then e.zero else q[k - 1]) :: q.drop i) := by
  obtain ⟨pre, post, log, rfl, hl, hs⟩ := hv.rep' hq
  have hf : Fits pre q post := by simp only [Fits]; omega
  cases post with
  | nil => rw [maxSize_mk'] at hroom; simp [mk'] at hroom
  | cons p post =>
    have hroom' : q.length < pre.length + q.length + (p :: post).length := by simp; omega
    have hlt : i < q.length := by omega
    have hi0 : i ≠ 0 := by omega
    have hb : pre.length + q.length < sizeMod := by simp only [Fits] at hf; omega
    have hst := made_room (pre := pre) (q := q) (post := post) (log := log) (e := e) (p := p) i (Nat.le_of_lt hlt) hb
    rw [insertOwn, slotOf_at k hk, res_bind_ok]
    have hrd' : rd (pre ++ (q.take i ++ e.zero :: q.drop i) ++ post) (pre.length + k) = .ok (if k = i then e.zero else q[k - 1]) := by
      have hk' : k < (q.take i ++ e.zero :: q.drop i).length := by simp; omega
      rw [rd_window k hk']
      rw [List.getElem_append_right (by simp; omega)]
      by_cases hki : k = i
      · subst hki
        simp [Nat.min_eq_left (Nat.le_of_lt hlt)]
      · obtain ⟨d, rfl⟩ : ∃ d, k = i + (d + 1) := ⟨k - i - 1, by omega⟩
        rw [if_neg hki]
        congr 1
        have : i + (d + 1) - (q.take i).length = d + 1 := by simp; omega
        simp only [this, List.getElem_cons_succ, List.getElem_drop]
        congr 1
    obtain ⟨pre', p', post', h1, h2, _⟩ := insert_mid (b := b) (e := e) (log := log) hf hroom' i hi0 hlt (if k = i then e.zero else q[k - 1])
    refine ⟨_, (insertSlot_shift hi0 (by simp [mk']; omega) (compact_room p) hst hrd').trans h1, holds_mk' ?_⟩
    simp only [Fits, List.length_cons, List.length_append, List.length_take, List.length_drop] at *
    omega

/-- C133 is false at the back when elements were taken from the front and the window has reached the end of the storage: the elements are moved to the front first, and as many elements further on
is what is inserted, or the value with all bytes zero. -/
theorem C133_back_counterexample {v : Vec α} (hv : Vec.Reachable b e v) {q : List α} (hq : v.Holds q) (ht : v.tail = v.maxSize) (h0 : 0 < v.head) {k : Nat} (hk : k < q.length) :
    ∃ v', v.pushBackOwn b e k = .ok v' ∧ v'.Holds (q ++ [q[v.head + k]?.getD e.zero]) := by
  obtain ⟨pre, post, log, rfl, hl, hs⟩ := hv.rep' hq
  have hf : Fits pre q post := by simp only [Fits]; omega
  have hpost : post = [] := by
    rw [maxSize_mk', show (mk' pre q post log).tail = pre.length + q.length from rfl] at ht
    exact List.length_eq_zero_iff.mp (by omega)
  subst hpost
  have hpre : pre ≠ [] := List.length_pos_iff.mp h0
  have hc := compact_move (b := b) (e := e) (log := log) hf hpre
  obtain ⟨a, pre', rfl⟩ := List.exists_cons_of_ne_nil hpre
  have hrd : rd (mk' [] q (List.replicate (a :: pre').length e.zero) log).store ((a :: pre').length + k) = .ok (q[(a :: pre').length + k]?.getD e.zero) := by
    rw [rd_getD (by simp [mk']; omega) e.zero]
    congr 1
    simp only [mk', List.nil_append]
    by_cases h : (a :: pre').length + k < q.length
    · rw [List.getElem?_append_left h]
    · rw [List.getElem?_append_right (by omega), List.getElem?_eq_none (l := q) (by omega), List.getElem?_replicate]
      split <;> rfl
  rw [pushBackOwn, slotOf_at k hk, res_bind_ok, pushBackSlot_eq hc hrd]
  rw [List.length_cons, List.replicate_succ] at hc
  rw [pushBack_compact _ hc (compact_room _), pushBack_room]
  refine ⟨_, rfl, holds_mk' ?_⟩
  simp only [Fits, List.length_cons, List.length_append, List.length_replicate, List.length_nil] at *
  omega

unseal usub sizeMod in
/-- A vector of capacity 4 with three elements: `push_front(v[0])`, `push_front(v[2])`, `push_back(v[1])`. -/
example : ((Vec.create natElem 4).run .debug natElem [.pushBack 1, .pushBack 2, .pushBack 3] >>= fun r => r.2.pushFrontOwn .debug natElem 0).map Vec.store = .ok [0, 1, 2, 3] ∧
    ((Vec.create natElem 4).run .debug natElem [.pushBack 1, .pushBack 2, .pushBack 3] >>= fun r => r.2.pushFrontOwn .debug natElem 2).map Vec.store = .ok [2, 1, 2, 3] ∧
    ((Vec.create natElem 4).run .debug natElem [.pushBack 1, .pushBack 2, .pushBack 3] >>= fun r => r.2.pushBackOwn .debug natElem 1).map Vec.store = .ok [1, 2, 3, 2] := by
  exact ⟨rfl, rfl, rfl⟩

/-- C133 is false for insertions in the middle, too, when the window has reached the end of the storage: the elements are moved to the front first, then room is made, and what is then as many
elements further on is inserted, or the value with all bytes zero. -/
theorem C133_moved_counterexample {v : Vec α} (hv : Vec.Reachable b e v) {q : List α} (hq : v.Holds q) (ht : v.tail = v.maxSize) (h0 : 0 < v.head) {i k : Nat} (hi : 0 < i)
    (hlt : i < q.length) (hk : k < q.length) :
    ∃ v', v.insertOwn b e i k = .ok v' ∧
      v'.Holds (q.take i ++ (if v.head + k < i then q[v.head + k]?.getD e.zero else if v.head + k = i then e.zero else q[v.head + k - 1]?.getD e.zero) :: q.drop i) := by
  obtain ⟨pre, post, log, rfl, hl, hs⟩ := hv.rep' hq
  have hf : Fits pre q post := by simp only [Fits]; omega
  have hpost : post = [] := by
    rw [maxSize_mk', show (mk' pre q post log).tail = pre.length + q.length from rfl] at ht
    exact List.length_eq_zero_iff.mp (by omega)
  subst hpost
  have hpre : pre ≠ [] := List.length_pos_iff.mp h0
  have hc := compact_move (b := b) (e := e) (log := log) hf hpre
  have hhead : (mk' pre q [] log).head = pre.length := rfl
  rw [hhead]
  have hroom : q.length < pre.length + q.length + ([] : List α).length := by
    have := List.length_pos_iff.mpr hpre
    simp; omega
  have hi0 : i ≠ 0 := by omega
  generalize hx : (if pre.length + k < i then q[pre.length + k]?.getD e.zero else if pre.length + k = i then e.zero else q[pre.length + k - 1]?.getD e.zero) = x
  obtain ⟨pre', p', post', h1, h2, _⟩ := insert_mid (b := b) (e := e) (log := log) hf hroom i hi0 hlt x
  rw [insertOwn, slotOf_at k hk, res_bind_ok]
  obtain ⟨n, hn⟩ : ∃ n, pre.length = n + 1 := ⟨pre.length - 1, by have := List.length_pos_iff.mpr hpre; omega⟩
  rw [hn, List.replicate_succ] at hc
  have hb : ([] : List α).length + q.length < sizeMod := by simp only [Fits] at hf; simp; omega
  have hst := made_room (pre := []) (q := q) (post := List.replicate n e.zero) (log := log) (e := e) (p := e.zero) i (Nat.le_of_lt hlt) hb
  have hrd : rd ([] ++ (q.take i ++ e.zero :: q.drop i) ++ List.replicate n e.zero) (pre.length + k) = .ok x := by
    rw [rd_getD (by simp; omega) e.zero, ← hx]
    congr 1
    rw [List.nil_append, List.append_assoc]
    by_cases c1 : pre.length + k < i
    · rw [if_pos c1, List.getElem?_append_left (by simp; omega), List.getElem?_take_of_lt c1]
    · rw [if_neg c1, List.getElem?_append_right (by simp; omega)]
      have hlen : (q.take i).length = i := by simp; omega
      rw [hlen]
      by_cases c2 : pre.length + k = i
      · rw [if_pos c2, c2, Nat.sub_self]; rfl
      · rw [if_neg c2]
        obtain ⟨d, hd⟩ : ∃ d, pre.length + k = i + (d + 1) := ⟨pre.length + k - i - 1, by omega⟩
        rw [hd, show i + (d + 1) - i = d + 1 by omega, show i + (d + 1) - 1 = i + d by omega, List.cons_append, List.getElem?_cons_succ]
        by_cases c3 : i + d < q.length
        · rw [List.getElem?_append_left (by simp; omega), List.getElem?_drop]
        · rw [List.getElem?_append_right (by simp; omega), List.getElem?_eq_none (l := q) (by omega), List.getElem?_replicate]
          split <;> rfl
  refine ⟨_, (insertSlot_shift hi0 (by simp [mk']; omega) hc hst hrd).trans h1, holds_mk' ?_⟩
  simp only [Fits, List.length_cons, List.length_append, List.length_take, List.length_drop, List.length_nil] at *
  omega

unseal usub sizeMod in
/-- A vector of capacity 3 used as a queue: after 1, 2, 3 and the removal of 1, `push_back(v[0])` appends 3. -/
example : ((Vec.create natElem 3).run .debug natElem [.pushBack 1, .pushBack 2, .pushBack 3, .popFront true] >>= fun r => r.2.pushBackOwn .debug natElem 0).map Vec.store = .ok [2, 3, 3] := by
  rfl

unseal usub sizeMod in
/-- A vector of capacity 4: after 1, 2, 3, 4 and the removal of 1, `insert(1, v[0])` inserts zero, and `insert(2, v[0])` inserts 3. -/
example : ((Vec.create natElem 4).run .debug natElem [.pushBack 1, .pushBack 2, .pushBack 3, .pushBack 4, .popFront true] >>= fun r => r.2.insertOwn .debug natElem 1 0).map Vec.store =
      .ok [2, 0, 3, 4] ∧
    ((Vec.create natElem 4).run .debug natElem [.pushBack 1, .pushBack 2, .pushBack 3, .pushBack 4, .popFront true] >>= fun r => r.2.insertOwn .debug natElem 2 0).map Vec.store =
      .ok [2, 3, 3, 4] := by
  exact ⟨rfl, rfl⟩

end Spine
