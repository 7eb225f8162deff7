import Verif.Spec.Sequence
/-!
# Lemmas about the vector model

`Vec.mk' pre q post log` is the vector whose window holds `q`, with the slots `pre` before and `post`
after it.
-/

namespace Spine

variable {α : Type}

theorem usub_le {a b : Nat} (h : b ≤ a) (_ha : a < sizeMod) : usub a b = a - b := if_pos h

theorem usub_self (a : Nat) (ha : a < sizeMod) : usub a a = 0 := by
  rw [usub_le (Nat.le_refl _) ha]; omega

theorem usub_zero {a : Nat} (ha : a < sizeMod) : usub a 0 = a := by
  rw [usub_le (by omega) ha]; omega

theorem uadd_lt {a b : Nat} (h : a + b < sizeMod) : uadd a b = a + b := by rw [uadd_eq, Nat.mod_eq_of_lt h]

-- Unfolding these during unification would compute with `sizeMod` in unary.
attribute [local irreducible] usub uadd sizeMod

theorem rd_append_left {a b : List α} {i : Nat} (h : i < a.length) : rd (a ++ b) i = .ok a[i] := by
  simp [rd, List.getElem?_append, h]

theorem rd_mid (a b : List α) (x : α) : rd (a ++ x :: b) a.length = .ok x := by
  simp [rd]

theorem rd_lt {m : List α} {i : Nat} (h : i < m.length) : rd m i = .ok m[i] := by
  simp [rd, h]

theorem set_mid (a b : List α) (x y : α) : (a ++ x :: b).set a.length y = a ++ y :: b := by
  simp

theorem split_at_index (q : List α) (i : Nat) (hi : i < q.length) : q = q.take i ++ q[i] :: q.drop (i + 1) := by
  simp

theorem memmove_zero (m : List α) (d s : Nat) : memmove m d s 0 = .ok m := by simp [memmove]

/-- Move `q` to the start of the block. -/
theorem memmove_front (pre q post : List α) :
    ∃ rest, memmove (pre ++ q ++ post) 0 pre.length q.length = .ok (q ++ rest) ∧
      (q ++ rest).length = (pre ++ q ++ post).length := by
  by_cases hq : q.length = 0
  · have : q = [] := List.length_eq_zero_iff.mp hq
    subst this
    exact ⟨pre ++ post, by simp [memmove], by simp⟩
  · refine ⟨(pre ++ q ++ post).drop q.length, ?_, ?_⟩
    · have h1 : pre.length + q.length ≤ (pre ++ q ++ post).length ∧ 0 + q.length ≤ (pre ++ q ++ post).length := by
        simp; omega
      simp only [memmove, if_neg hq, if_pos h1]
      simp
    · simp; omega

theorem memzero_tail (e : Elem α) (q rest : List α) :
    memzero e (q ++ rest) q.length rest.length = .ok (q ++ List.replicate rest.length e.zero) := by
  by_cases hr : rest.length = 0
  · have : rest = [] := List.length_eq_zero_iff.mp hr
    subst this; simp [memzero]
  · simp [memzero, hr]

/-- Make room for one element by moving `c` one slot to the right over `p`, then clear the gap. -/
theorem shift_right (e : Elem α) (a c post : List α) (p : α) :
    (memmove (a ++ c ++ p :: post) (a.length + 1) a.length c.length >>= fun m => memzero e m a.length 1)
      = .ok (a ++ e.zero :: (c ++ post)) := by
  cases c with
  | nil => simp [memmove, memzero, List.drop_append]
  | cons x c =>
    have h1 : a.length + (x :: c).length ≤ (a ++ x :: c ++ p :: post).length ∧
        a.length + 1 + (x :: c).length ≤ (a ++ x :: c ++ p :: post).length := by
      simp; omega
    have h0 : (x :: c).length ≠ 0 := by simp
    simp only [memmove, if_neg h0, if_pos h1, res_bind_ok]
    have e1 : (a ++ x :: c ++ p :: post).take (a.length + 1) = a ++ [x] := by
      rw [show a ++ x :: c ++ p :: post = (a ++ [x]) ++ (c ++ p :: post) by simp, List.take_left' (by simp)]
    have e2 : ((a ++ x :: c ++ p :: post).drop a.length).take (x :: c).length = x :: c := by
      simp
    have e3 : (a ++ x :: c ++ p :: post).drop (a.length + 1 + (x :: c).length) = post := by
      have : a ++ x :: c ++ p :: post = (a ++ x :: c ++ [p]) ++ post := by simp
      rw [this, List.drop_left' (by simp; omega)]
    rw [e1, e2, e3]
    have h2 : a.length + 1 ≤ (a ++ [x] ++ x :: c ++ post).length := by simp
    simp only [memzero, if_pos h2]
    simp [List.drop_append]

/-- Close the gap at slot `a.length`: everything up to and including `p` moves one slot to the left. -/
theorem shift_left (a c post : List α) (y p : α) :
    memmove (a ++ y :: c ++ p :: post) a.length (a.length + 1) (c.length + 1)
      = .ok (a ++ c ++ p :: p :: post) := by
  have h1 : a.length + 1 + (c.length + 1) ≤ (a ++ y :: c ++ p :: post).length ∧
      a.length + (c.length + 1) ≤ (a ++ y :: c ++ p :: post).length := by
    simp; omega
  simp only [memmove, if_pos h1]
  rw [if_neg (by omega)]
  have e1 : (a ++ y :: c ++ p :: post).take a.length = a := by simp
  have e2 : ((a ++ y :: c ++ p :: post).drop (a.length + 1)).take (c.length + 1) = c ++ [p] := by
    have : a ++ y :: c ++ p :: post = (a ++ [y]) ++ (c ++ p :: post) := by simp
    rw [this, List.drop_left' (by simp), show c ++ p :: post = (c ++ [p]) ++ post by simp,
      List.take_left' (by simp)]
  have e3 : (a ++ y :: c ++ p :: post).drop (a.length + (c.length + 1)) = p :: post := by
    have : a ++ y :: c ++ p :: post = (a ++ y :: c) ++ p :: post := by simp
    rw [this, List.drop_left' (by simp)]
  rw [e1, e2, e3]; simp

namespace Vec

/-- The vector with window `q`. -/
def mk' (pre q post : List α) (log : List (Ev α)) : Vec α :=
  { store := pre ++ q ++ post, head := pre.length, tail := pre.length + q.length, log }

variable {b : Build} {e : Elem α} {pre q post : List α} {log : List (Ev α)}

/-- Size of the block. -/
abbrev Fits (pre q post : List α) : Prop := pre.length + q.length + post.length < sizeMod

theorem size_mk' (h : Fits pre q post) : (mk' pre q post log).size = q.length := by
  simp only [size, mk']
  rw [usub_le (by omega) (by omega)]; omega

theorem maxSize_mk' : (mk' pre q post log).maxSize = pre.length + q.length + post.length := by
  simp [maxSize, mk']; omega

theorem assign_at {s1 s2 : List α} {y x : α} {h t i : Nat} (hi : i = s1.length) :
    assign ⟨s1 ++ y :: s2, h, t, log⟩ i x
      = .ok ⟨s1 ++ x :: s2, h, t, .copied x :: .destroyed y :: log⟩ := by
  subst hi
  simp only [assign, rd_mid, res_bind_ok, set_mid]; rfl

theorem rearrange_zero (hf : Fits pre q post) (hp : q.length < pre.length + q.length + post.length) :
    rearrange b e (mk' pre q post log) 0
      = .ok (mk' [] q (List.replicate (pre.length + post.length) e.zero) log) := by
  obtain ⟨rest, hm, hl⟩ := memmove_front pre q post
  have hl' : rest.length = pre.length + post.length := by simp at hl; omega
  simp only [rearrange, size_mk' hf, maxSize_mk']
  rw [show decide (0 + q.length < pre.length + q.length + post.length) = true by simpa using hp]
  have hu : usub q.length (0 + q.length) = 0 := by
    rw [Nat.zero_add]; exact usub_self _ (by omega)
  rw [hu, show decide (0 < pre.length + q.length + post.length) = true by simp; omega]
  have hu2 : usub (pre.length + q.length + post.length) (0 + q.length) = rest.length := by
    rw [Nat.zero_add, usub_le (by omega) hf]; omega
  rw [hu2]
  simp only [spnAssert_true, res_bind_ok]
  rw [show (mk' pre q post log).store = pre ++ q ++ post from rfl,
    show (mk' pre q post log).head = pre.length from rfl, hm]
  simp only [res_bind_ok]
  rw [show memzero e (q ++ rest) 0 0 = .ok (q ++ rest) by simp [memzero]]
  simp only [res_bind_ok, Nat.zero_add]
  rw [memzero_tail]
  simp only [res_bind_ok, res_pure, hl']
  simp [mk']

theorem compact_room (x : α) : compact b e (mk' pre q (x :: post) log) = .ok (mk' pre q (x :: post) log) := by
  unfold compact
  rw [maxSize_mk', if_neg]
  simp [mk']; omega

theorem compact_move (hf : Fits pre q []) (hp : pre ≠ []) :
    compact b e (mk' pre q [] log) = .ok (mk' [] q (List.replicate pre.length e.zero) log) := by
  have hl : 0 < pre.length := List.length_pos_iff.mpr hp
  unfold compact
  rw [maxSize_mk', if_pos (by simp [mk', List.length_pos_iff.mpr hp]), rearrange_zero hf (by simp; omega)]
  simp

/-- After compaction there is room behind the window, whenever there is room at all.  Either nothing
moved, or the window moved to the start and all other slots are cleared. -/
theorem compact_spec (hf : Fits pre q post) (hroom : q.length < pre.length + q.length + post.length) :
    ∃ pre' p post', compact b e (mk' pre q post log) = .ok (mk' pre' q (p :: post') log) ∧
      pre'.length + q.length + (post'.length + 1) = pre.length + q.length + post.length ∧
      ((pre' = pre ∧ p :: post' = post) ∨ (pre' = [] ∧ ∀ x ∈ p :: post', x = e.zero)) := by
  cases post with
  | cons p post' => exact ⟨pre, p, post', compact_room p, by simp, .inl ⟨rfl, rfl⟩⟩
  | nil =>
    cases pre with
    | nil => simp at hroom
    | cons a pre =>
      refine ⟨[], e.zero, List.replicate pre.length e.zero, ?_, by simp; omega, .inr ⟨rfl, ?_⟩⟩
      · rw [compact_move hf (by simp)]; rfl
      · intro x hx
        rcases List.mem_cons.mp hx with h | h
        · exact h
        · exact List.eq_of_mem_replicate h

theorem pushBack_room (p x : α) :
    pushBack b e (mk' pre q (p :: post) log) x
      = .ok (mk' pre (q ++ [x]) post (.copied x :: .destroyed p :: log)) := by
  have hlt : pre.length + q.length < pre.length + q.length + (p :: post).length := by simp
  simp only [pushBack, compact_room, res_bind_ok, maxSize_mk']
  rw [show (mk' pre q (p :: post) log).tail = pre.length + q.length from rfl]
  rw [show decide (pre.length + q.length < pre.length + q.length + (p :: post).length) = true by
    simp]
  simp only [spnAssert_true, res_bind_ok, if_pos hlt]
  rw [show mk' pre q (p :: post) log
      = ⟨(pre ++ q) ++ p :: post, pre.length, pre.length + q.length, log⟩ from rfl,
    assign_at (by simp)]
  simp [mk', Nat.add_assoc]

theorem pushBack_compact {v w : Vec α} (x : α) (h : compact b e v = .ok w)
    (hw : compact b e w = .ok w) : pushBack b e v x = pushBack b e w x := by
  simp only [pushBack, h, hw, res_bind_ok]

theorem pushBack_spec (hf : Fits pre q post) (hroom : q.length < pre.length + q.length + post.length) (x : α) :
    ∃ pre' p post', pushBack b e (mk' pre q post log) x
        = .ok (mk' pre' (q ++ [x]) post' (.copied x :: .destroyed p :: log)) ∧
      pre'.length + (q.length + 1) + post'.length = pre.length + q.length + post.length ∧
      ((pre' = pre ∧ p :: post' = post) ∨ (pre' = [] ∧ ∀ x ∈ p :: post', x = e.zero)) := by
  obtain ⟨pre', p, post', hc, hlen, hor⟩ := compact_spec (b := b) (e := e) (log := log) hf hroom
  refine ⟨pre', p, post', ?_, by omega, hor⟩
  rw [pushBack_compact x hc (compact_room p), pushBack_room]

theorem emplaceBack_eq (v : Vec α) (x : α) : emplaceBack b e v x = pushBack b e v x := rfl

/-- The shared body of `push_front` and `emplace_front`. -/
theorem front_spec (hf : Fits pre q post) (hroom : q.length < pre.length + q.length + post.length) (x : α) :
    ∃ pre' y post', emplaceFront e (mk' pre q post log) x
        = .ok (mk' pre' (x :: q) post' (.copied x :: .destroyed y :: log)) ∧
      pre'.length + (q.length + 1) + post'.length = pre.length + q.length + post.length ∧
      ((pre' ++ [y] = pre ∧ post' = post) ∨ (pre' = pre ∧ pre = [] ∧ y = e.zero ∧ ∃ p, p :: post' = post)) := by
  rcases List.eq_nil_or_concat pre with rfl | ⟨pre', y, rfl⟩
  · cases post with
    | nil => simp at hroom
    | cons p post =>
      refine ⟨[], e.zero, post, ?_, by simp; omega, .inr ⟨rfl, rfl, rfl, p, rfl⟩⟩
      simp only [emplaceFront, size_mk' hf]
      rw [if_neg (by simp [mk'])]
      have hs := shift_right e [] q post p
      simp only [List.length_nil, Nat.zero_add, List.nil_append] at hs
      simp only [mk', List.length_nil, List.nil_append, Nat.zero_add]
      cases hm : memmove (q ++ p :: post) 1 0 q.length with
      | error er => rw [hm] at hs; simp at hs
      | ok m =>
        rw [hm] at hs
        simp only [res_bind_ok] at hs
        simp only [res_bind_ok, hs]
        have := assign_at (log := log) (s1 := []) (s2 := q ++ post) (y := e.zero) (x := x) (h := 0)
          (t := q.length) (i := 0) rfl
        simp only [List.nil_append] at this
        simp [this]
  · refine ⟨pre', y, post, ?_, by simp; omega, .inl ⟨by simp, rfl⟩⟩
    simp only [emplaceFront]
    rw [if_pos (by simp [mk'])]
    have : (mk' (pre'.concat y) q post log).head - 1 = pre'.length := by simp [mk']
    rw [this]
    have h2 : ({ mk' (pre'.concat y) q post log with head := pre'.length } : Vec α)
        = ⟨pre' ++ y :: (q ++ post), pre'.length, pre'.length + 1 + q.length, log⟩ := by
      simp [mk']
    rw [h2, assign_at rfl]
    simp [mk']; omega

theorem pushFront_eq (hf : Fits pre q post) (hroom : q.length < pre.length + q.length + post.length) (x : α) :
    pushFront b e (mk' pre q post log) x = emplaceFront e (mk' pre q post log) x := by
  simp only [pushFront, size_mk' hf, maxSize_mk']
  rw [show decide (q.length < pre.length + q.length + post.length) = true by simpa using hroom]
  simp only [spnAssert_true, res_bind_ok, emplaceFront, size_mk' hf]

theorem insert_mid (hf : Fits pre q post) (hroom : q.length < pre.length + q.length + post.length)
    (i : Nat) (hi0 : i ≠ 0) (hi : i < q.length) (x : α) :
    ∃ pre' p post', insert b e (mk' pre q post log) i x
        = .ok (mk' pre' (q.take i ++ x :: q.drop i) post' (.copied x :: .destroyed e.zero :: log)) ∧
      pre'.length + (q.length + 1) + post'.length = pre.length + q.length + post.length ∧
      ((pre' = pre ∧ p :: post' = post) ∨ (pre' = [] ∧ ∀ x ∈ p :: post', x = e.zero)) := by
  obtain ⟨pre', p, post', hc, hlen, hor⟩ := compact_spec (b := b) (e := e) (log := log) hf hroom
  refine ⟨pre', p, post', ?_, by omega, hor⟩
  simp only [insert, size_mk' hf, maxSize_mk']
  rw [show decide (q.length < pre.length + q.length + post.length) = true by simpa using hroom]
  simp only [spnAssert_true, res_bind_ok, if_neg hi0]
  rw [if_neg (by simp [mk']; omega), hc]
  simp only [res_bind_ok, maxSize_mk']
  rw [show (mk' pre' q (p :: post') log).tail = pre'.length + q.length from rfl,
    show (mk' pre' q (p :: post') log).head = pre'.length from rfl,
    show (mk' pre' q (p :: post') log).store = pre' ++ q ++ p :: post' from rfl]
  rw [show decide (pre'.length + q.length < pre'.length + q.length + (p :: post').length) = true by simp]
  rw [spnAssert_true, res_bind_ok]
  have hu : usub (pre'.length + q.length) (pre'.length + i) = (q.drop i).length := by
    have hb : pre'.length + q.length < sizeMod := by
      have := hf; simp only [Fits] at this; omega
    rw [usub_le (Nat.add_le_add_left (Nat.le_of_lt hi) _) hb, List.length_drop]; omega
  rw [hu]
  have hs := shift_right e (pre' ++ q.take i) (q.drop i) post' p
  have hlen' : (pre' ++ q.take i).length = pre'.length + i := by simp; omega
  rw [hlen'] at hs
  have hq : pre' ++ q.take i ++ q.drop i ++ p :: post' = pre' ++ q ++ p :: post' := by simp
  rw [hq] at hs
  cases hm : memmove (pre' ++ q ++ p :: post') (pre'.length + i + 1) (pre'.length + i) (q.drop i).length with
  | error er => rw [hm] at hs; simp at hs
  | ok m =>
    rw [hm] at hs
    simp only [res_bind_ok] at hs
    simp only [res_bind_ok, hs]
    rw [assign_at (by rw [hlen'])]
    simp [mk']; omega

theorem insert_front (hf : Fits pre q post) (hroom : q.length < pre.length + q.length + post.length) (x : α) :
    insert b e (mk' pre q post log) 0 x = emplaceFront e (mk' pre q post log) x := by
  simp only [insert, size_mk' hf, maxSize_mk']
  rw [show decide (q.length < pre.length + q.length + post.length) = true by simpa using hroom]
  simp only [spnAssert_true, res_bind_ok, if_pos, pushFront_eq hf hroom]

theorem insert_back (hf : Fits pre q post) (hroom : q.length < pre.length + q.length + post.length)
    (i : Nat) (hi0 : i ≠ 0) (hi : q.length ≤ i) (x : α) :
    insert b e (mk' pre q post log) i x = pushBack b e (mk' pre q post log) x := by
  simp only [insert, size_mk' hf, maxSize_mk']
  rw [show decide (q.length < pre.length + q.length + post.length) = true by simpa using hroom]
  simp only [spnAssert_true, res_bind_ok, if_neg hi0]
  rw [if_pos (by simp [mk']; omega)]

/-- What consuming does to the slot and to the log. -/
def left (e : Elem α) (c : Bool) (x : α) : α := if c then e.moved x else x
def logTake (c : Bool) (x : α) (log : List (Ev α)) : List (Ev α) := if c then .taken x :: log else log

theorem rvalue_at {s1 s2 : List α} {x : α} {h t i : Nat} (c : Bool) (hi : i = s1.length) :
    rvalue e ⟨s1 ++ x :: s2, h, t, log⟩ i c
      = .ok (x, ⟨s1 ++ left e c x :: s2, h, t, logTake c x log⟩) := by
  subst hi
  cases c with
  | false => simp only [rvalue, rd_mid, res_bind_ok]; rfl
  | true =>
    simp only [rvalue, take, rd_mid, res_bind_ok, set_mid]; rfl

theorem popFront_eq {v : Vec α} (h : 0 < v.size) (c : Bool) :
    popFront b e v c = rvalue e (if v.tail = v.head + 1 then { v with tail := 0, head := 0 }
      else { v with head := v.head + 1 }) v.head c := by
  simp [popFront, h]

theorem popBack_eq {v : Vec α} (h : 0 < v.size) (ht : 0 < v.tail) (c : Bool) :
    popBack b e v c = if v.tail - 1 = v.head then rvalue e { v with tail := 0, head := 0 } 0 c
      else rvalue e { v with tail := v.tail - 1 } (v.tail - 1) c := by
  simp only [popBack, gt_iff_lt, h, decide_true, spnAssert_true, res_bind_ok, ht, if_true]
  split <;> rfl

theorem popFront_one (x : α) (c : Bool) (hf : Fits pre [x] post) :
    popFront b e (mk' pre [x] post log) c
      = .ok (x, mk' [] [] (pre ++ left e c x :: post) (logTake c x log)) := by
  rw [popFront_eq (by rw [size_mk' hf]; simp), if_pos (by simp [mk'])]
  have := rvalue_at (e := e) (log := log) (s1 := pre) (s2 := post) (x := x) (h := 0) (t := 0) c rfl
  simpa [mk'] using this

theorem popFront_more (x y : α) (q : List α) (c : Bool) (hf : Fits pre (x :: y :: q) post) :
    popFront b e (mk' pre (x :: y :: q) post log) c
      = .ok (x, mk' (pre ++ [left e c x]) (y :: q) post (logTake c x log)) := by
  rw [popFront_eq (by rw [size_mk' hf]; simp), if_neg (by simp [mk'])]
  have := rvalue_at (e := e) (log := log) (s1 := pre) (s2 := y :: q ++ post) (x := x) (h := pre.length + 1)
    (t := pre.length + (x :: y :: q).length) c rfl
  rw [show ({ mk' pre (x :: y :: q) post log with head := (mk' pre (x :: y :: q) post log).head + 1 } : Vec α)
    = ⟨pre ++ x :: (y :: q ++ post), pre.length + 1, pre.length + (x :: y :: q).length, log⟩ by simp [mk'],
    show (mk' pre (x :: y :: q) post log).head = pre.length from rfl, this]
  simp [mk']; omega

theorem popBack_more (x : α) (q : List α) (hq : q ≠ []) (c : Bool) (hf : Fits pre (q ++ [x]) post) :
    popBack b e (mk' pre (q ++ [x]) post log) c
      = .ok (x, mk' pre q (left e c x :: post) (logTake c x log)) := by
  have hq' : 0 < q.length := List.length_pos_iff.mpr hq
  have ht : (mk' pre (q ++ [x]) post log).tail - 1 = pre.length + q.length := by simp [mk']
  rw [popBack_eq (by rw [size_mk' hf]; simp) (by simp [mk']; omega), ht, if_neg (by simp [mk']; omega)]
  rw [show ({ mk' pre (q ++ [x]) post log with tail := pre.length + q.length } : Vec α)
    = ⟨(pre ++ q) ++ x :: post, pre.length, pre.length + q.length, log⟩ by simp [mk'],
    rvalue_at c (by simp)]
  simp [mk']

theorem popBack_one (x : α) (c : Bool) (hf : Fits pre [x] post) :
    popBack b e (mk' pre [x] post log) c = (do
      let y ← rd (pre ++ x :: post) 0
      return (y, mk' [] [] ((pre ++ x :: post).set 0 (left e c y)) (logTake c y log))) := by
  rw [popBack_eq (by rw [size_mk' hf]; simp) (by simp [mk']), if_pos (by simp [mk'])]
  rw [show ({ mk' pre [x] post log with tail := 0, head := 0 } : Vec α)
    = ⟨pre ++ x :: post, 0, 0, log⟩ by simp [mk']]
  cases hp : pre ++ x :: post with
  | nil => simp at hp
  | cons y ys =>
    have := rvalue_at (e := e) (log := log) (s1 := []) (s2 := ys) (x := y) (h := 0) (t := 0) (i := 0) c rfl
    simp only [List.nil_append] at this
    rw [this]; simp [rd, mk']

theorem remove_eq {v : Vec α} {index : Nat} (h1 : v.head < index) (h2 : index < v.tail) :
    remove b e v index = (do
      let (removed, v) ← v.take e index
      let store ← memmove v.store index (index + 1) (usub v.tail index)
      return (removed, if v.tail - 1 = v.head then { v with store, tail := 0, head := 0 }
        else { v with store, tail := v.tail - 1 })) := by
  unfold remove
  rw [if_neg (by omega), if_neg (by omega), if_pos ⟨h1, h2⟩]

/-- `remove` inside the window, with a slot behind the window. -/
theorem remove_mid {p : α} (hf : Fits pre q (p :: post)) (i : Nat) (hi0 : i ≠ 0) (hi : i < q.length) :
    remove b e (mk' pre q (p :: post) log) (pre.length + i)
      = .ok (q[i], mk' pre (q.take i ++ q.drop (i + 1)) (p :: p :: post) (.taken q[i] :: log)) := by
  rw [remove_eq (by simp [mk']; omega) (by simp [mk']; omega)]
  have hst : pre ++ q ++ p :: post = (pre ++ q.take i) ++ q[i] :: (q.drop (i + 1) ++ p :: post) := by
    have := split_at_index q i hi
    conv => lhs; rw [this]
    simp only [List.append_assoc, List.cons_append]
  have hlen : pre.length + i = (pre ++ q.take i).length := by simp; omega
  have ht := rvalue_at (e := e) (log := log) (s1 := pre ++ q.take i) (s2 := q.drop (i + 1) ++ p :: post)
    (x := q[i]) (h := pre.length) (t := pre.length + q.length) (i := pre.length + i) true hlen
  rw [← hst] at ht
  simp only [rvalue, if_true] at ht
  have hmk : mk' pre q (p :: post) log = ⟨pre ++ q ++ p :: post, pre.length, pre.length + q.length, log⟩ := rfl
  rw [hmk, ht]
  have hu : usub (pre.length + q.length) (pre.length + i) = (q.drop (i + 1)).length + 1 := by
    have hb : pre.length + q.length < sizeMod := by
      have := hf; simp only [Fits] at this; omega
    rw [usub_le (Nat.add_le_add_left (Nat.le_of_lt hi) _) hb, List.length_drop]; omega
  have hsl := shift_left (pre ++ q.take i) (q.drop (i + 1)) post (left e true q[i]) p
  rw [← hlen] at hsl
  rw [res_bind_ok]
  simp only
  rw [hu, show pre ++ q.take i ++ left e true q[i] :: (q.drop (i + 1) ++ p :: post)
    = pre ++ q.take i ++ left e true q[i] :: q.drop (i + 1) ++ p :: post by simp, hsl, res_bind_ok,
    if_neg (by omega)]
  simp [logTake, mk']; omega

theorem remove_first : remove b e (mk' pre q post log) pre.length
      = popFront b e (mk' pre q post log) true := by
  simp [remove, mk']

theorem put_at (i : Nat) (hi : i < q.length) (x : α) :
    put b (mk' pre q post log) i x
      = .ok (mk' pre (q.set i x) post (.copied x :: .destroyed q[i] :: log)) := by
  have hd : decide ((mk' pre q post log).head + i < (mk' pre q post log).tail) = true := by simp [mk', hi]
  simp only [put, hd, spnAssert_true, res_bind_ok]
  simp only [mk']
  have hst : pre ++ q ++ post = (pre ++ q.take i) ++ q[i] :: (q.drop (i + 1) ++ post) := by
    have := split_at_index q i hi
    conv => lhs; rw [this]
    simp only [List.append_assoc, List.cons_append]
  rw [hst, assign_at (by simp; omega)]
  simp [List.set_eq_take_append_cons_drop, hi]; omega

theorem get_at (i : Nat) (hi : i < q.length) : get b (mk' pre q post log) i = .ok q[i] := by
  have hd : decide ((mk' pre q post log).head + i < (mk' pre q post log).tail) = true := by simp [mk', hi]
  simp only [get, hd, spnAssert_true, res_bind_ok]
  simp only [mk', rd]
  rw [List.getElem?_append_left (by simp; omega), List.getElem?_append_right (by omega)]
  simp [hi]

theorem rd_window (i : Nat) (hi : i < q.length) : rd (pre ++ q ++ post) (pre.length + i) = .ok q[i] := by
  simp only [rd]
  rw [List.getElem?_append_left (by simp; omega), List.getElem?_append_right (by omega)]
  simp [hi]

theorem foldlM_assign (x : α) (n : Nat) : ∀ (s1 s2 : List α) (h t : Nat) (log : List (Ev α)), s2.length = n →
    (List.range' s1.length n).foldlM (fun v i => assign v i x) (⟨s1 ++ s2, h, t, log⟩ : Vec α)
      = .ok ⟨s1 ++ List.replicate n x, h, t,
          (s2.reverse.flatMap fun y => [.copied x, .destroyed y]) ++ log⟩ := by
  induction n with
  | zero =>
    intro s1 s2 h t log hs
    obtain rfl := List.length_eq_zero_iff.mp hs
    simp
  | succ n ih =>
    intro s1 s2 h t log hs
    cases s2 with
    | nil => simp at hs
    | cons y s2 =>
      rw [List.range'_succ, List.foldlM_cons, assign_at rfl]
      simp only [res_bind_ok]
      have := ih (s1 ++ [x]) s2 h t (.copied x :: .destroyed y :: log) (by simpa using hs)
      simp only [List.length_append, List.length_singleton, List.append_assoc, List.singleton_append] at this
      rw [this]
      simp [List.replicate_succ]

theorem fill_mk' (x : α) :
    fill (mk' pre q post log) x = .ok (mk' [] (List.replicate (pre.length + q.length + post.length) x) []
      (((pre ++ q ++ post).reverse.flatMap fun y => [.copied x, .destroyed y]) ++ log)) := by
  have h := foldlM_assign x (pre ++ q ++ post).length [] (pre ++ q ++ post) pre.length
    (pre.length + q.length) log rfl
  simp only [List.length_nil, List.nil_append] at h
  unfold fill
  rw [List.range_eq_range', show (mk' pre q post log).maxSize = (pre ++ q ++ post).length from rfl]
  simp only [mk']
  rw [h]
  simp [maxSize]; omega

end Vec
end Spine
