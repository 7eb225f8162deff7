import Verif.Proofs.Vector
/-!
# The vector refines a bounded sequence
-/

namespace Spine.Vec

variable {α : Type}

attribute [local irreducible] usub uadd sizeMod

/-- Operations that leave the start of the window where it is when it is at slot 0. -/
def KeepsFront : Op α → Prop
  | .popFront _ => False
  | .remove i => i ≠ 0
  | _ => True

/-- When `pop_back`, `remove` and `front` do what their names say. -/
def Sound (v : Vec α) (q : List α) : Op α → Prop
  | .popBack _ => v.head = 0 ∨ 2 ≤ q.length
  | .remove _ => v.head = 0 ∧ q.length < v.maxSize
  | .front => v.head = 0
  | _ => True

/-- Popped values are consumed; `clear` is used on a window that starts at slot 0. -/
def Counts (v : Vec α) : Op α → Prop
  | .popFront c => c = true
  | .popBack c => c = true
  | .clear => v.head = 0
  | _ => True

/-- What a step preserves. -/
def Next (e : Elem α) (pre q post : List α) (log : List (Ev α)) (op : Op α)
    (pre' q' post' : List α) (log' : List (Ev α)) : Prop :=
  pre'.length + q'.length + post'.length = pre.length + q.length + post.length ∧
  (pre = [] → KeepsFront op → pre' = []) ∧
  (∀ _ : DecidableEq α, (∀ x, e.moved x = e.zero) → Counts (mk' pre q post log) op →
    (∀ x ∈ pre ++ post, x = e.zero) → (∀ x ∈ pre' ++ post', x = e.zero) ∧
      ∀ x, x ≠ e.zero → Seq.owned x log' - q'.count x = Seq.owned x log - q.count x)

variable {b : Build} {e : Elem α} {pre q post : List α} {log : List (Ev α)}

theorem Next.refl (op : Op α) : Next e pre q post log op pre q post log :=
  ⟨rfl, fun h _ => h, fun _ _ _ h => ⟨h, fun _ _ => rfl⟩⟩

theorem owned_push [DecidableEq α] (x y : α) (log : List (Ev α)) (z : α) (hz : z ≠ y) :
    Seq.owned z (.copied x :: .destroyed y :: log) = Seq.owned z log + if x = z then 1 else 0 := by
  simp [Seq.owned, Ne.symm hz]

theorem count_cons_int [DecidableEq α] (x z : α) (q : List α) :
    ((x :: q).count z : Int) = q.count z + if x = z then 1 else 0 := by
  by_cases h : x = z <;> simp [h]

theorem count_insert [DecidableEq α] (x z : α) (q : List α) (i : Nat) :
    ((q.take i ++ x :: q.drop i).count z : Int) = q.count z + if x = z then 1 else 0 := by
  have h : q.count z = (q.take i).count z + (q.drop i).count z := by
    rw [← List.count_append, List.take_append_drop]
  rw [List.count_append, Int.natCast_add, count_cons_int]; omega

theorem count_erase [DecidableEq α] (z : α) (q : List α) (i : Nat) (hi : i < q.length) :
    ((q.take i ++ q.drop (i + 1)).count z : Int) = q.count z - if q[i] = z then 1 else 0 := by
  have h := split_at_index q i hi
  have h' : ((q.take i ++ q[i] :: q.drop (i + 1)).count z : Int) = q.count z := by rw [← h]
  rw [List.count_append, Int.natCast_add, count_cons_int] at h'
  rw [List.count_append, Int.natCast_add]; omega

theorem next_pushBack (hf : Fits pre q post) (hroom : q.length < pre.length + q.length + post.length) (x : α)
    (op : Op α) :
    ∃ pre' post' log', pushBack b e (mk' pre q post log) x = .ok (mk' pre' (q ++ [x]) post' log') ∧
      Next e pre q post log op pre' (q ++ [x]) post' log' := by
  obtain ⟨pre', p, post', h, hlen, hor⟩ := pushBack_spec (b := b) (e := e) (log := log) hf hroom x
  refine ⟨pre', post', _, h, by simp; omega, ?_, ?_⟩
  · intro hp _
    rcases hor with ⟨rfl, _⟩ | ⟨rfl, _⟩
    · exact hp
    · rfl
  · intro _ _ _ hz
    have hp : p = e.zero := by
      rcases hor with ⟨_, rfl⟩ | ⟨_, h⟩
      · exact hz p (by simp)
      · exact h p (by simp)
    refine ⟨?_, ?_⟩
    · rcases hor with ⟨rfl, rfl⟩ | ⟨rfl, hh⟩
      · intro y hy
        exact hz y (by simp at hy ⊢; rcases hy with h | h <;> simp [h])
      · intro y hy; exact hh y (by simp at hy ⊢; simp [hy])
    · intro z hzz
      rw [owned_push x p log z (hp ▸ hzz), List.count_append]
      have := count_cons_int x z []
      simp only [List.count_nil] at this
      rw [Int.natCast_add, this]; omega

theorem next_front (hf : Fits pre q post) (hroom : q.length < pre.length + q.length + post.length) (x : α)
    (op : Op α) :
    ∃ pre' post' log', emplaceFront e (mk' pre q post log) x = .ok (mk' pre' (x :: q) post' log') ∧
      Next e pre q post log op pre' (x :: q) post' log' := by
  obtain ⟨pre', y, post', h, hlen, hor⟩ := front_spec (e := e) (log := log) hf hroom x
  refine ⟨pre', post', _, h, by simp; omega, ?_, ?_⟩
  · intro hp _
    rcases hor with ⟨h, _⟩ | ⟨h, _⟩
    · subst hp; simp at h
    · rw [h, hp]
  · intro _ _ _ hz
    have hy : y = e.zero := by
      rcases hor with ⟨rfl, _⟩ | ⟨_, _, h, _⟩
      · exact hz y (by simp)
      · exact h
    refine ⟨?_, ?_⟩
    · rcases hor with ⟨rfl, rfl⟩ | ⟨rfl, rfl, _, p, rfl⟩
      · intro w hw
        exact hz w (by simp at hw ⊢; rcases hw with h | h <;> simp [h])
      · intro w hw; exact hz w (by simp at hw ⊢; simp [hw])
    · intro z hzz
      rw [owned_push x y log z (hy ▸ hzz), count_cons_int]; omega

theorem next_insert (hf : Fits pre q post) (hroom : q.length < pre.length + q.length + post.length)
    (i : Nat) (x : α) (op : Op α) :
    ∃ pre' post' log', insert b e (mk' pre q post log) i x
        = .ok (mk' pre' (q.take i ++ x :: q.drop i) post' log') ∧
      Next e pre q post log op pre' (q.take i ++ x :: q.drop i) post' log' := by
  by_cases hi0 : i = 0
  · subst hi0
    rw [insert_front hf hroom]
    simpa using next_front (e := e) (log := log) hf hroom x op
  · by_cases hi : i < q.length
    · obtain ⟨pre', p, post', h, hlen, hor⟩ := insert_mid (b := b) (e := e) (log := log) hf hroom i hi0 hi x
      refine ⟨pre', post', _, h, by simp; omega, ?_, ?_⟩
      · intro hp _
        rcases hor with ⟨rfl, _⟩ | ⟨rfl, _⟩
        · exact hp
        · rfl
      · intro _ _ _ hz
        refine ⟨?_, ?_⟩
        · rcases hor with ⟨rfl, rfl⟩ | ⟨rfl, hh⟩
          · intro y hy
            exact hz y (by simp at hy ⊢; rcases hy with h | h <;> simp [h])
          · intro y hy; exact hh y (by simp at hy ⊢; simp [hy])
        · intro z hzz
          rw [owned_push x e.zero log z hzz, count_insert]; omega
    · rw [insert_back hf hroom i hi0 (by omega), List.take_of_length_le (by omega), List.drop_of_length_le (by omega)]
      exact next_pushBack hf hroom x op

theorem next_popFront (hf : Fits pre (x :: q) post) (c : Bool) (op : Op α) (hk : ¬ KeepsFront op)
    (hc : Counts (mk' pre (x :: q) post log) op → c = true) :
    ∃ pre' post' log', popFront b e (mk' pre (x :: q) post log) c = .ok (x, mk' pre' q post' log') ∧
      Next e pre (x :: q) post log op pre' q post' log' := by
  cases q with
  | nil =>
    refine ⟨_, _, _, popFront_one x c hf, by simp +arith, fun _ h => absurd h hk, ?_⟩
    intro _ hm h hz
    obtain rfl := hc h
    refine ⟨?_, ?_⟩
    · intro y hy
      simp [left, hm] at hy
      rcases hy with h | h | h
      · exact hz y (by simp [h])
      · exact h
      · exact hz y (by simp [h])
    · intro z _
      rw [count_cons_int]
      simp [logTake, Seq.owned]
  | cons y q =>
    refine ⟨_, _, _, popFront_more x y q c hf, by simp; omega, fun _ h => absurd h hk, ?_⟩
    intro _ hm h hz
    obtain rfl := hc h
    refine ⟨?_, ?_⟩
    · intro y hy
      simp [left, hm] at hy
      rcases hy with h | h | h
      · exact hz y (by simp [h])
      · exact h
      · exact hz y (by simp [h])
    · intro z _
      rw [count_cons_int x]
      simp [logTake, Seq.owned]; omega

/-- `pop_back` where it is sound. -/
theorem next_popBack (hf : Fits pre (q ++ [x]) post) (c : Bool) (op : Op α)
    (hs : pre = [] ∨ q ≠ []) (hc : Counts (mk' pre (q ++ [x]) post log) op → c = true) :
    ∃ post' log', popBack b e (mk' pre (q ++ [x]) post log) c = .ok (x, mk' pre q post' log') ∧
      Next e pre (q ++ [x]) post log op pre q post' log' := by
  have key : popBack b e (mk' pre (q ++ [x]) post log) c
      = .ok (x, mk' pre q (left e c x :: post) (logTake c x log)) := by
    by_cases hq : q = []
    · obtain rfl := hs.resolve_right (by simpa using hq)
      subst hq
      simp only [List.nil_append] at hf ⊢
      rw [popBack_one x c hf]
      simp [rd]
    · exact popBack_more x q hq c hf
  refine ⟨_, _, key, by simp; omega, fun h _ => h, ?_⟩
  intro _ hm h hz
  obtain rfl := hc h
  refine ⟨?_, ?_⟩
  · intro y hy
    simp [left, hm] at hy
    rcases hy with h | h | h
    · exact hz y (by simp [h])
    · exact h
    · exact hz y (by simp [h])
  · intro z _
    rw [List.count_append, Int.natCast_add]
    have := count_cons_int x z []
    simp only [List.count_nil] at this
    rw [this]
    simp [logTake, Seq.owned]; omega

/-- `pop_back` in every case: the window loses its last element, whatever is returned. -/
theorem popBack_any (hf : Fits pre (q ++ [x]) post) (c : Bool) :
    ∃ y pre' post' log', popBack b e (mk' pre (q ++ [x]) post log) c = .ok (y, mk' pre' q post' log') ∧
      pre'.length + q.length + post'.length = pre.length + (q.length + 1) + post.length := by
  by_cases hq : q = []
  · subst hq
    simp only [List.nil_append] at hf ⊢
    rw [popBack_one x c hf]
    cases hp : pre ++ x :: post with
    | nil => simp at hp
    | cons y ys =>
      refine ⟨y, [], _, _, by simp [rd]; rfl, ?_⟩
      have := congrArg List.length hp
      simp at this ⊢; omega
  · exact ⟨x, pre, _, _, popBack_more x q hq c hf, by simp; omega⟩

theorem clearLoop_spec : ∀ (k : Nat) (pre q post : List α) (log : List (Ev α)), q.length = k → Fits pre q post →
    ∃ pre' post' log', clearLoop b e (mk' pre q post log) k = .ok (mk' pre' [] post' log') ∧
      pre'.length + post'.length = pre.length + q.length + post.length ∧
      (pre = [] → pre' = []) ∧
      (∀ _ : DecidableEq α, (∀ x, e.moved x = e.zero) → pre = [] →
        (∀ x ∈ pre ++ post, x = e.zero) → (∀ x ∈ pre' ++ post', x = e.zero) ∧
          ∀ x, x ≠ e.zero → Seq.owned x log' = Seq.owned x log - q.count x)
  | 0, pre, q, post, log, hk, _ => by
    obtain rfl := List.length_eq_zero_iff.mp hk
    exact ⟨pre, post, log, rfl, by simp, id, fun _ _ _ h => ⟨h, fun _ _ => by simp⟩⟩
  | k + 1, pre, q, post, log, hk, hf => by
    rcases List.eq_nil_or_concat q with rfl | ⟨q, x, rfl⟩
    · simp at hk
    · rw [List.concat_eq_append] at hk hf ⊢
      by_cases hp : pre = []
      · subst hp
        obtain ⟨post', log', h, hlen, _, hcnt⟩ := next_popBack (b := b) (e := e) (log := log) hf true (.popBack true)
          (.inl rfl) (fun _ => rfl)
        obtain ⟨pre'', post'', log'', h2, hlen2, hp2, hcnt2⟩ := clearLoop_spec k [] q post' log'
          (by simpa using hk) (by simp only [Fits] at hf ⊢; omega)
        refine ⟨pre'', post'', log'', ?_, by omega, hp2, ?_⟩
        · simp only [clearLoop, h, res_bind_ok, h2]
        · intro d hm _ hz
          obtain ⟨z1, c1⟩ := hcnt d hm rfl hz
          obtain ⟨z2, c2⟩ := hcnt2 d hm rfl z1
          refine ⟨z2, fun y hy => ?_⟩
          have := c1 y hy; have := c2 y hy; omega
      · obtain ⟨y, pre', post', log', h, hlen⟩ := popBack_any (b := b) (e := e) (log := log) hf true
        obtain ⟨pre'', post'', log'', h2, hlen2, hp2, hcnt2⟩ := clearLoop_spec k pre' q post' log'
          (by simpa using hk) (by simp only [Fits, List.length_append, List.length_singleton] at hf ⊢; omega)
        refine ⟨pre'', post'', log'', ?_, by simp; omega, fun h => absurd h hp, fun _ _ h => absurd h hp⟩
        simp only [clearLoop, h, res_bind_ok, h2]

theorem owned_fill [DecidableEq α] (x z : α) (s : List α) (log : List (Ev α)) :
    Seq.owned z ((s.flatMap fun y => [.copied x, .destroyed y]) ++ log)
      = Seq.owned z log + (List.replicate s.length x).count z - s.count z := by
  induction s with
  | nil => simp
  | cons y s ih =>
    simp only [List.flatMap_cons, List.cons_append, List.nil_append, Seq.owned, List.length_cons,
      List.replicate_succ]
    rw [count_cons_int, count_cons_int, ih]; omega

theorem step_spec {n : Nat} (hn : pre.length + q.length + post.length = n) (hs : n < sizeMod) (op : Op α)
    {o : Out α} {q' : List α} (hstep : Seq.step n q op = some (o, q'))
    (hok : Sound (mk' pre q post log) q op) :
    ∃ pre' post' log', step b e (mk' pre q post log) op = .ok (o, mk' pre' q' post' log') ∧
      Next e pre q post log op pre' q' post' log' := by
  have hf : Fits pre q post := by simp only [Fits]; omega
  cases op with
  | pushBack x =>
    simp only [Seq.step] at hstep
    split at hstep
    · rename_i hroom
      simp only [Option.some.injEq, Prod.mk.injEq] at hstep
      obtain ⟨rfl, rfl⟩ := hstep
      obtain ⟨p', s', l', h, hnx⟩ := next_pushBack (b := b) (e := e) (log := log) hf (by omega) x (.pushBack x)
      exact ⟨p', s', l', by simp [step, h], hnx⟩
    · simp at hstep
  | emplaceBack x =>
    simp only [Seq.step] at hstep
    split at hstep
    · rename_i hroom
      simp only [Option.some.injEq, Prod.mk.injEq] at hstep
      obtain ⟨rfl, rfl⟩ := hstep
      obtain ⟨p', s', l', h, hnx⟩ := next_pushBack (b := b) (e := e) (log := log) hf (by omega) x (.emplaceBack x)
      exact ⟨p', s', l', by simp [step, emplaceBack_eq, h], hnx⟩
    · simp at hstep
  | pushFront x =>
    simp only [Seq.step] at hstep
    split at hstep
    · rename_i hroom
      simp only [Option.some.injEq, Prod.mk.injEq] at hstep
      obtain ⟨rfl, rfl⟩ := hstep
      obtain ⟨p', s', l', h, hnx⟩ := next_front (e := e) (log := log) hf (by omega) x (.pushFront x)
      exact ⟨p', s', l', by simp [step, pushFront_eq hf (by omega : q.length < _), h], hnx⟩
    · simp at hstep
  | emplaceFront x =>
    simp only [Seq.step] at hstep
    split at hstep
    · rename_i hroom
      simp only [Option.some.injEq, Prod.mk.injEq] at hstep
      obtain ⟨rfl, rfl⟩ := hstep
      obtain ⟨p', s', l', h, hnx⟩ := next_front (e := e) (log := log) hf (by omega) x (.emplaceFront x)
      exact ⟨p', s', l', by simp [step, h], hnx⟩
    · simp at hstep
  | insert i x =>
    simp only [Seq.step] at hstep
    split at hstep
    · rename_i hroom
      simp only [Option.some.injEq, Prod.mk.injEq] at hstep
      obtain ⟨rfl, rfl⟩ := hstep
      obtain ⟨p', s', l', h, hnx⟩ := next_insert (b := b) (e := e) (log := log) hf (by omega) i x (.insert i x)
      exact ⟨p', s', l', by simp [step, h], hnx⟩
    · simp at hstep
  | popFront c =>
    cases q with
    | nil => simp [Seq.step] at hstep
    | cons x q =>
      simp only [Seq.step, Option.some.injEq, Prod.mk.injEq] at hstep
      obtain ⟨rfl, rfl⟩ := hstep
      obtain ⟨p', s', l', h, hnx⟩ := next_popFront (b := b) (e := e) (log := log) hf c (.popFront c)
        (fun h => h) (fun h => h)
      exact ⟨p', s', l', by simp [step, h], hnx⟩
  | popBack c =>
    rcases List.eq_nil_or_concat q with rfl | ⟨q, x, rfl⟩
    · simp [Seq.step] at hstep
    · simp only [List.concat_eq_append] at *
      simp only [Seq.step, List.getLast?_append, List.getLast?_singleton, Option.some_or, Option.some.injEq,
        Prod.mk.injEq, List.dropLast_concat] at hstep
      obtain ⟨rfl, rfl⟩ := hstep
      have hs' : pre = [] ∨ q ≠ [] := by
        rcases hok with h | h
        · exact .inl (List.length_eq_zero_iff.mp h)
        · right; rintro rfl; simp at h
      obtain ⟨s', l', h, hnx⟩ := next_popBack (b := b) (e := e) (log := log) hf c (.popBack c) hs' (fun h => h)
      exact ⟨pre, s', l', by simp [step, h], hnx⟩
  | remove i =>
    obtain ⟨hh, hroom⟩ := hok
    obtain rfl : pre = [] := List.length_eq_zero_iff.mp hh
    rw [maxSize_mk'] at hroom
    by_cases hi : i < q.length
    · simp only [Seq.step, List.getElem?_eq_getElem hi, Option.some.injEq, Prod.mk.injEq] at hstep
      obtain ⟨rfl, rfl⟩ := hstep
      by_cases hi0 : i = 0
      · subst hi0
        cases q with
        | nil => simp at hi
        | cons x q =>
          obtain ⟨p', s', l', h, hnx⟩ := next_popFront (b := b) (e := e) (log := log) hf true (.remove 0)
            (fun h => h rfl) (fun _ => rfl)
          refine ⟨p', s', l', ?_, by simpa using hnx⟩
          have := remove_first (b := b) (e := e) (pre := []) (q := x :: q) (post := post) (log := log)
          simp only [List.length_nil] at this
          simp [step, this, h]
      · cases post with
        | nil => simp at hroom
        | cons p post =>
          have := remove_mid (b := b) (e := e) (log := log) hf i hi0 hi
          simp only [List.length_nil, Nat.zero_add] at this
          refine ⟨[], p :: p :: post, .taken q[i] :: log, by simp [step, this], by simp; omega, fun _ _ => rfl, ?_⟩
          intro _ hm _ hz
          refine ⟨?_, ?_⟩
          · intro y hy
            exact hz y (by simp at hy ⊢; exact hy)
          · intro z _
            rw [count_erase z q i hi]
            simp [Seq.owned]; omega
    · simp [Seq.step, List.getElem?_eq_none (by omega : q.length ≤ i)] at hstep
  | clear =>
    simp only [Seq.step, Option.some.injEq, Prod.mk.injEq] at hstep
    obtain ⟨rfl, rfl⟩ := hstep
    obtain ⟨p', s', l', h, hlen, hp, hcnt⟩ := clearLoop_spec (b := b) (e := e) q.length pre q post log rfl hf
    refine ⟨p', s', l', by simp [step, clear, size_mk' hf, h], by simpa using hlen, fun h _ => hp h, ?_⟩
    intro d hm hc hz
    obtain ⟨h1, h2⟩ := hcnt d hm (List.length_eq_zero_iff.mp hc) hz
    exact ⟨h1, fun y hy => by simp [h2 y hy]⟩
  | fill x =>
    simp only [Seq.step, Option.some.injEq, Prod.mk.injEq] at hstep
    obtain ⟨rfl, rfl⟩ := hstep
    subst hn
    refine ⟨[], [], _, by rw [step, fill_mk']; rfl, by simp, fun _ _ => rfl, ?_⟩
    intro _ hm _ hz
    refine ⟨by simp, ?_⟩
    intro z hzz
    rw [owned_fill]
    have h0 : ∀ l : List α, (∀ x ∈ l, x = e.zero) → l.count z = 0 := by
      intro l hl
      rw [List.count_eq_zero]
      intro hmem; exact hzz (hl z hmem)
    have h1 := h0 pre (fun x hx => hz x (by simp [hx]))
    have h2 := h0 post (fun x hx => hz x (by simp [hx]))
    rw [List.count_reverse, List.count_append, List.count_append, h1, h2]
    simp only [List.length_reverse, List.length_append]
    omega
  | put i x =>
    simp only [Seq.step] at hstep
    split at hstep
    · rename_i hi
      simp only [Option.some.injEq, Prod.mk.injEq] at hstep
      obtain ⟨rfl, rfl⟩ := hstep
      refine ⟨pre, post, _, by simp [step, put_at i hi]; rfl, by simp, fun h _ => h, ?_⟩
      intro _ hm _ hz
      refine ⟨hz, ?_⟩
      intro z hzz
      have h1 : ((q.set i x).count z : Int) = q.count z - (if q[i] = z then 1 else 0) + if x = z then 1 else 0 := by
        have h2 : q.set i x = q.take i ++ x :: q.drop (i + 1) := by
          simp [List.set_eq_take_append_cons_drop, hi]
        have h3 := count_erase z q i hi
        rw [List.count_append, Int.natCast_add] at h3
        rw [h2, List.count_append, Int.natCast_add, count_cons_int]; omega
      rw [h1]; simp only [Seq.owned]; omega
    · simp at hstep
  | get i =>
    by_cases hi : i < q.length
    · simp only [Seq.step, List.getElem?_eq_getElem hi, Option.map_some, Option.some.injEq, Prod.mk.injEq] at hstep
      obtain ⟨rfl, rfl⟩ := hstep
      exact ⟨pre, post, log, by simp [step, get_at i hi], Next.refl _⟩
    · simp [Seq.step, List.getElem?_eq_none (by omega : q.length ≤ i)] at hstep
  | peekFront =>
    cases q with
    | nil => simp [Seq.step] at hstep
    | cons x q =>
      simp only [Seq.step, List.head?_cons, Option.map_some, Option.some.injEq, Prod.mk.injEq] at hstep
      obtain ⟨rfl, rfl⟩ := hstep
      refine ⟨pre, post, log, ?_, Next.refl _⟩
      have := rd_window (pre := pre) (q := x :: q) (post := post) 0 (by simp)
      simp only [Nat.add_zero] at this
      simp only [step, peekFront, size_mk' hf]
      simp only [List.length_cons, gt_iff_lt, Nat.zero_lt_succ, decide_true, spnAssert_true, res_bind_ok]
      simp only [mk']
      rw [this]; rfl
  | peekBack =>
    rcases List.eq_nil_or_concat q with rfl | ⟨q, x, rfl⟩
    · simp [Seq.step] at hstep
    · simp only [List.concat_eq_append] at *
      simp only [Seq.step, List.getLast?_append, List.getLast?_singleton, Option.some_or, Option.map_some,
        Option.some.injEq, Prod.mk.injEq] at hstep
      obtain ⟨rfl, rfl⟩ := hstep
      refine ⟨pre, post, log, ?_, Next.refl _⟩
      have h1 := rd_window (pre := pre) (q := q ++ [x]) (post := post) q.length (by simp)
      have hu : usub (mk' pre (q ++ [x]) post log).tail 1 = pre.length + q.length := by
        simp only [mk', List.length_append, List.length_singleton]
        rw [usub_le (by omega) (by simp only [Fits, List.length_append, List.length_singleton] at hf; omega)]
        omega
      simp only [step, peekBack, size_mk' hf, hu]
      simp only [List.length_append, List.length_singleton, gt_iff_lt, Nat.zero_lt_succ, decide_true,
        spnAssert_true, res_bind_ok]
      rw [show (mk' pre (q ++ [x]) post log).store = pre ++ (q ++ [x]) ++ post from rfl, h1]
      simp
  | back =>
    rcases List.eq_nil_or_concat q with rfl | ⟨q, x, rfl⟩
    · simp [Seq.step] at hstep
    · simp only [List.concat_eq_append] at *
      simp only [Seq.step, List.getLast?_append, List.getLast?_singleton, Option.some_or, Option.map_some,
        Option.some.injEq, Prod.mk.injEq] at hstep
      obtain ⟨rfl, rfl⟩ := hstep
      refine ⟨pre, post, log, ?_, Next.refl _⟩
      have h1 := rd_window (pre := pre) (q := q ++ [x]) (post := post) q.length (by simp)
      have ht : (mk' pre (q ++ [x]) post log).tail = pre.length + (q.length + 1) := by simp [mk']
      simp only [step, back, ht]
      rw [if_pos (by omega), show (mk' pre (q ++ [x]) post log).store = pre ++ (q ++ [x]) ++ post from rfl,
        show pre.length + (q.length + 1) - 1 = pre.length + q.length by omega, h1]
      simp
  | front =>
    obtain rfl : pre = [] := List.length_eq_zero_iff.mp hok
    cases q with
    | nil => simp [Seq.step] at hstep
    | cons x q =>
      simp only [Seq.step, List.head?_cons, Option.map_some, Option.some.injEq, Prod.mk.injEq] at hstep
      obtain ⟨rfl, rfl⟩ := hstep
      exact ⟨[], post, log, by simp [step, front, mk', rd], Next.refl _⟩
  | size =>
    simp only [Seq.step, Option.some.injEq, Prod.mk.injEq] at hstep
    obtain ⟨rfl, rfl⟩ := hstep
    exact ⟨pre, post, log, by simp [step, size_mk' hf], Next.refl _⟩
  | empty =>
    simp only [Seq.step, Option.some.injEq, Prod.mk.injEq] at hstep
    obtain ⟨rfl, rfl⟩ := hstep
    exact ⟨pre, post, log, by simp [step, empty, size_mk' hf], Next.refl _⟩
  | full =>
    simp only [Seq.step, Option.some.injEq, Prod.mk.injEq] at hstep
    obtain ⟨rfl, rfl⟩ := hstep
    exact ⟨pre, post, log, by simp [step, full, size_mk' hf, maxSize_mk', hn], Next.refl _⟩
  | maxSize =>
    simp only [Seq.step, Option.some.injEq, Prod.mk.injEq] at hstep
    obtain ⟨rfl, rfl⟩ := hstep
    exact ⟨pre, post, log, by simp [step, maxSize_mk', hn], Next.refl _⟩

end Spine.Vec

namespace Spine.Vec

variable {α : Type} {b : Build} {e : Elem α} {pre q post : List α} {log : List (Ev α)}

attribute [local irreducible] usub uadd sizeMod

/-- What a caller can see of the contents: the size, and each element through a checked `operator[]`. -/
def Holds (v : Vec α) (q : List α) : Prop :=
  v.size = q.length ∧ ∀ i (h : i < q.length), v.get .debug i = .ok q[i]

theorem Holds.unique {v : Vec α} {q q' : List α} (h : v.Holds q) (h' : v.Holds q') : q = q' := by
  apply List.ext_getElem
  · rw [← h.1, ← h'.1]
  · intro i h1 h2
    have a := h.2 i h1
    rw [h'.2 i h2] at a
    exact (Except.ok.inj a).symm

theorem holds_mk' (hf : Fits pre q post) : (mk' pre q post log).Holds q :=
  ⟨size_mk' hf, fun i h => get_at i h⟩

/-- The representation invariant. -/
def Rep (n : Nat) (v : Vec α) (q : List α) : Prop :=
  ∃ pre post log, v = mk' pre q post log ∧ pre.length + q.length + post.length = n ∧ n < sizeMod

theorem Rep.holds {n : Nat} {v : Vec α} (h : Rep n v q) : v.Holds q := by
  obtain ⟨pre, post, log, rfl, hl, hn⟩ := h
  exact holds_mk' (by simp only [Fits]; omega)

theorem Rep.maxSize {n : Nat} {v : Vec α} (h : Rep n v q) : v.maxSize = n := by
  obtain ⟨pre, post, log, rfl, hl, hn⟩ := h
  rw [maxSize_mk', hl]

theorem Rep.step {n : Nat} {v : Vec α} (h : Rep n v q) {op : Op α} {o : Out α} {q' : List α}
    (hstep : Seq.step n q op = some (o, q')) (hs : Sound v q op) :
    ∃ v', v.step b e op = .ok (o, v') ∧ Rep n v' q' ∧ (v.head = 0 → KeepsFront op → v'.head = 0) := by
  obtain ⟨pre, post, log, rfl, hl, hn⟩ := h
  obtain ⟨pre', post', log', h, hlen, hk, _⟩ := step_spec (b := b) (e := e) hl hn op hstep hs
  refine ⟨_, h, ⟨pre', post', log', rfl, by omega, hn⟩, ?_⟩
  intro hh ho
  have : pre = [] := List.length_eq_zero_iff.mp hh
  simp [mk', hk this ho]

theorem ofList_loop (vs : List α) : ∀ (s1 s2 : List α) (h t : Nat) (log : List (Ev α)), s2.length = vs.length →
    ∃ log', (vs.zipIdx s1.length).foldlM (fun v (p : α × Nat) => assign v p.2 p.1) (⟨s1 ++ s2, h, t, log⟩ : Vec α)
      = .ok ⟨s1 ++ vs, h, t, log'⟩ ∧
      ∀ _ : DecidableEq α, ∀ z, Seq.owned z log' = Seq.owned z log + vs.count z - s2.count z := by
  induction vs with
  | nil =>
    intro s1 s2 h t log hs
    obtain rfl := List.length_eq_zero_iff.mp hs
    exact ⟨log, by simp, by simp⟩
  | cons x vs ih =>
    intro s1 s2 h t log hs
    cases s2 with
    | nil => simp at hs
    | cons y s2 =>
      obtain ⟨log', h1, h2⟩ := ih (s1 ++ [x]) s2 h t (.copied x :: .destroyed y :: log) (by simpa using hs)
      refine ⟨log', ?_, ?_⟩
      · rw [List.zipIdx_cons, List.foldlM_cons, assign_at rfl]
        simp only [res_bind_ok]
        simp only [List.length_append, List.length_singleton, List.append_assoc, List.singleton_append] at h1
        exact h1
      · intro d z
        rw [h2 d z, count_cons_int, count_cons_int]
        simp only [Seq.owned]; omega

theorem ofList_spec (vs : List α) : ∃ log, ofList e vs = .ok (mk' [] vs [] log) ∧
    ∀ _ : DecidableEq α, ∀ z, z ≠ e.zero → Seq.owned z log = vs.count z := by
  obtain ⟨log, h, hc⟩ := ofList_loop vs [] (List.replicate vs.length e.zero) 0 0 [] (by simp)
  refine ⟨log, ?_, ?_⟩
  · unfold ofList create
    simp only [List.nil_append, List.length_nil] at h
    have h' : (vs.zipIdx.foldlM (fun v (x : α × Nat) => match x with | (x, i) => assign v i x)
        ({ store := List.replicate vs.length e.zero, head := 0, tail := 0, log := [] } : Vec α))
        = .ok ⟨vs, 0, 0, log⟩ := h
    rw [h']; simp [mk']
  · intro d z hz
    rw [hc d z]
    have : List.count z (List.replicate vs.length e.zero) = 0 := by
      rw [List.count_replicate, if_neg]; simpa using Ne.symm hz
    simp [Seq.owned, this]

theorem createFilled_eq (n : Nat) (x : α) : ∃ log, createFilled e n x = .ok (mk' [] (List.replicate n x) [] log) ∧
    ∀ _ : DecidableEq α, ∀ z, z ≠ e.zero → Seq.owned z log = (List.replicate n x).count z := by
  have h := fill_mk' (pre := []) (q := []) (post := List.replicate n e.zero) (log := ([] : List (Ev α))) x
  have hc : create e n = mk' [] [] (List.replicate n e.zero) [] := by simp [create, mk']
  unfold createFilled
  rw [hc, h]
  refine ⟨_, by simp only [List.length_nil, List.length_replicate, Nat.zero_add]; rfl, ?_⟩
  intro d z hz
  simp only [List.nil_append]
  rw [owned_fill]
  have : List.count z (List.replicate n e.zero) = 0 := by
    rw [List.count_replicate, if_neg]; simpa using Ne.symm hz
  simp [Seq.owned, this]

/-- The ways a vector comes into being, with its first contents. -/
inductive Start (e : Elem α) : Vec α → List α → Prop
  | create (n : Nat) : Start e (Vec.create e n) []
  | createFilled (n : Nat) (x : α) (v : Vec α) : Vec.createFilled e n x = .ok v → Start e v (List.replicate n x)
  | ofList (xs : List α) (v : Vec α) : Vec.ofList e xs = .ok v → Start e v xs
  | over (store : List α) (k : Nat) : k ≤ store.length → Start e (Vec.over store k) (store.take k)

theorem Start.rep {v : Vec α} (h : Start e v q) (hn : v.maxSize < sizeMod) :
    Rep v.maxSize v q ∧ v.head = 0 := by
  cases h with
  | create n =>
    exact ⟨⟨[], List.replicate n e.zero, [], by simp [Vec.create, mk'], by simp [Vec.create, Vec.maxSize], hn⟩, rfl⟩
  | createFilled n x v h =>
    obtain ⟨log, h', _⟩ := createFilled_eq (e := e) n x
    rw [h'] at h; obtain rfl := Except.ok.inj h
    exact ⟨⟨[], [], log, rfl, by simp [maxSize_mk'], hn⟩, rfl⟩
  | ofList xs v h =>
    obtain ⟨log, h', _⟩ := ofList_spec (e := e) q
    rw [h'] at h; obtain rfl := Except.ok.inj h
    exact ⟨⟨[], [], log, rfl, by simp [maxSize_mk'], hn⟩, rfl⟩
  | over store k hk =>
    exact ⟨⟨[], store.drop k, [], by simp [Vec.over, mk', hk], by simp [Vec.over, Vec.maxSize]; omega, hn⟩, rfl⟩

/-- Every vector a program can get by calls within their preconditions that return normally. -/
inductive Reachable (b : Build) (e : Elem α) : Vec α → Prop
  | start {v : Vec α} {q : List α} : Start e v q → v.maxSize < sizeMod → Reachable b e v
  | step {v v' : Vec α} {q : List α} {op : Op α} {o o' : Out α} {q' : List α} : Reachable b e v → v.Holds q →
      Seq.step v.maxSize q op = some (o', q') → v.step b e op = .ok (o, v') → Reachable b e v'

/-- Any call within its precondition that returns leaves a vector in good shape. -/
theorem Rep.any {n : Nat} {v v' : Vec α} (h : Rep n v q) {op : Op α} {o o' : Out α} {q' : List α}
    (hstep : Seq.step n q op = some (o', q')) (hr : v.step b e op = .ok (o, v')) : ∃ q', Rep n v' q' := by
  by_cases hs : Sound v q op
  · obtain ⟨w, h1, h2, _⟩ := h.step (b := b) (e := e) hstep hs
    rw [h1] at hr
    obtain ⟨-, rfl⟩ := Prod.mk.inj (Except.ok.inj hr)
    exact ⟨q', h2⟩
  · obtain ⟨pre, post, log, rfl, hl, hn⟩ := h
    have hf : Fits pre q post := by simp only [Fits]; omega
    cases op with
    | popBack c =>
      rcases List.eq_nil_or_concat q with rfl | ⟨q, x, rfl⟩
      · simp [Seq.step] at hstep
      · simp only [List.concat_eq_append] at *
        obtain ⟨y, p', s', l', h1, h2⟩ := popBack_any (b := b) (e := e) (log := log) hf c
        simp only [Vec.step, h1, res_bind_ok, res_pure, Except.ok.injEq, Prod.mk.injEq] at hr
        obtain ⟨-, rfl⟩ := hr
        exact ⟨q, p', s', l', rfl, by simp at hl; omega, hn⟩
    | front =>
      simp only [Vec.step] at hr
      cases hfr : (mk' pre q post log).front with
      | error er => rw [hfr] at hr; simp at hr
      | ok x =>
        rw [hfr] at hr
        simp only [res_bind_ok, res_pure, Except.ok.injEq, Prod.mk.injEq] at hr
        obtain ⟨-, rfl⟩ := hr
        exact ⟨q, pre, post, log, rfl, hl, hn⟩
    | remove i =>
      have hi : i < q.length := by
        by_cases hi : i < q.length
        · exact hi
        · simp [Seq.step, List.getElem?_eq_none (by omega : q.length ≤ i)] at hstep
      rcases Nat.lt_trichotomy i pre.length with hlt | heq | hgt
      · -- illegal index: nothing happens
        have : remove b e (mk' pre q post log) i = (do spnAssert b false; return (e.zero, mk' pre q post log)) := by
          unfold remove
          rw [if_neg (by simp [mk']; omega), if_neg (by simp [mk']; omega), if_neg (by simp [mk']; omega)]
        cases b with
        | debug => simp [Vec.step, this] at hr
        | release =>
          simp only [Vec.step, this, spnAssert_release, res_bind_ok, res_pure, Except.ok.injEq, Prod.mk.injEq] at hr
          obtain ⟨-, rfl⟩ := hr
          exact ⟨q, pre, post, log, rfl, hl, hn⟩
      · subst heq
        cases q with
        | nil => simp at hi
        | cons x q =>
          obtain ⟨p', s', l', h1, hnx⟩ := next_popFront (b := b) (e := e) (log := log) hf true (.popFront true)
            (fun h => h) (fun _ => rfl)
          simp only [Vec.step, remove_first, h1, res_bind_ok, res_pure, Except.ok.injEq, Prod.mk.injEq] at hr
          obtain ⟨-, rfl⟩ := hr
          exact ⟨q, p', s', l', rfl, by have := hnx.1; simp at this hl; omega, hn⟩
      · cases post with
        | nil =>
          exfalso
          have h1 := remove_eq (b := b) (e := e) (v := mk' pre q [] log) (index := i) (by simp [mk']; omega)
            (by simp [mk']; omega)
          have hlt : i < (pre ++ q ++ []).length := by simp; omega
          have hu : usub (pre.length + q.length) i = pre.length + q.length - i := by
            rw [usub_le (by omega) (by simp only [Fits, List.length_nil] at hf; omega)]
          have h2 : take e (mk' pre q [] log) i = .ok ((pre ++ q ++ [])[i],
              ⟨(pre ++ q ++ []).set i (e.moved (pre ++ q ++ [])[i]), pre.length, pre.length + q.length,
                .taken (pre ++ q ++ [])[i] :: log⟩) := by
            simp only [take, mk']
            rw [rd_lt hlt]; rfl
          rw [h2, res_bind_ok] at h1
          simp only at h1
          rw [hu] at h1
          have h3 : memmove ((pre ++ q ++ []).set i (e.moved (pre ++ q ++ [])[i])) i (i + 1)
              (pre.length + q.length - i) = .error .ub := by
            unfold memmove
            rw [if_neg (by omega), if_neg (by simp; omega)]
          simp only [h3, res_bind_error] at h1
          rw [Vec.step, h1] at hr
          simp at hr
        | cons p post =>
          obtain ⟨k, rfl⟩ : ∃ k, i = pre.length + k := ⟨i - pre.length, by omega⟩
          have h1 := remove_mid (b := b) (e := e) (log := log) hf k (by omega) (by omega)
          simp only [Vec.step, h1, res_bind_ok, res_pure, Except.ok.injEq, Prod.mk.injEq] at hr
          obtain ⟨-, rfl⟩ := hr
          exact ⟨_, pre, p :: p :: post, _, rfl, by simp at hl ⊢; omega, hn⟩
    | _ => exact absurd trivial hs

theorem Reachable.rep {v : Vec α} (h : Reachable b e v) : ∃ q, Rep v.maxSize v q := by
  induction h with
  | start h hn => exact ⟨_, (h.rep hn).1⟩
  | step _ hq hstep hr ih =>
    obtain ⟨q0, h0⟩ := ih
    obtain rfl := h0.holds.unique hq
    obtain ⟨q1, h1⟩ := h0.any hstep hr
    exact ⟨q1, by rw [h1.maxSize]; exact h1⟩

theorem Reachable.rep' {v : Vec α} (h : Reachable b e v) (hq : v.Holds q) : Rep v.maxSize v q := by
  obtain ⟨q', h'⟩ := h.rep
  obtain rfl := h'.holds.unique hq
  exact h'

/-! ## Iteration -/

theorem forward_loop (hf : Fits pre q post) : ∀ (fuel k : Nat), k ≤ q.length → q.length - k < fuel →
    iterate (mk' pre q post log) (fun i => uadd i 1) (pre.length + q.length) (pre.length + k) fuel
      = .ok (q.drop k)
  | 0, k, _, h => by omega
  | fuel + 1, k, hk, hfu => by
    unfold iterate
    by_cases he : k = q.length
    · subst he; simp
    · have hlt : k < q.length := by omega
      rw [if_neg (by omega)]
      rw [show (mk' pre q post log).store = pre ++ q ++ post from rfl, rd_window k hlt]
      simp only [res_bind_ok]
      rw [uadd_lt (by simp only [Fits] at hf; omega), show pre.length + k + 1 = pre.length + (k + 1) by omega,
        forward_loop hf fuel (k + 1) (by omega) (by omega)]
      simp

theorem usub_pred {a : Nat} (h : 0 < a) (ha : a < sizeMod) : usub a 1 = a - 1 := usub_le h ha

theorem usub_zero_one : usub 0 1 = sizeMod - 1 := by simp [usub]

theorem reverse_loop (hf : Fits pre q post) : ∀ (fuel k : Nat), k ≤ q.length → k < fuel →
    iterate (mk' pre q post log) (fun i => usub i 1) (usub pre.length 1) (usub (pre.length + k) 1) fuel
      = .ok (q.take k).reverse
  | 0, k, _, h => by omega
  | fuel + 1, 0, hk, hfu => by simp [iterate]
  | fuel + 1, k + 1, hk, hfu => by
    unfold iterate
    have h1 : usub (pre.length + (k + 1)) 1 = pre.length + k := by
      rw [usub_pred (by omega) (by simp only [Fits] at hf; omega)]; omega
    have h2 : usub pre.length 1 ≠ pre.length + k := by
      by_cases hp : pre.length = 0
      · rw [hp, usub_zero_one]; simp only [Fits] at hf; omega
      · rw [usub_pred (by omega) (by simp only [Fits] at hf; omega)]; omega
    rw [h1, if_neg (Ne.symm h2), show (mk' pre q post log).store = pre ++ q ++ post from rfl,
      rd_window k (by omega)]
    simp only [res_bind_ok]
    rw [reverse_loop hf fuel k (by omega) (by omega)]
    simp only [res_bind_ok, res_pure]
    rw [List.take_succ_eq_append_getElem (by omega), List.reverse_append]
    rfl

/-! ## Histories -/

theorem seq_run_cons {n : Nat} {q : List α} {op : Op α} {ops : List (Op α)} {outs : List (Out α)} {q' : List α}
    (h : Seq.run n q (op :: ops) = some (outs, q')) :
    ∃ o q1 os, Seq.step n q op = some (o, q1) ∧ Seq.run n q1 ops = some (os, q') ∧ outs = o :: os := by
  unfold Seq.run at h
  cases hs : Seq.step n q op with
  | none => rw [hs] at h; simp at h
  | some r =>
    obtain ⟨o, q1⟩ := r
    rw [hs] at h
    cases hr : Seq.run n q1 ops with
    | none => simp [hr] at h
    | some r =>
      obtain ⟨os, q2⟩ := r
      simp [hr] at h
      obtain ⟨rfl, rfl⟩ := h
      exact ⟨o, q1, os, rfl, hr, rfl⟩

/-- A history of calls each of which is sound where it happens. -/
theorem Rep.run {n : Nat} (P : Vec α → List α → List (Op α) → Prop)
    (hP : ∀ v q op ops, Rep n v q → P v q (op :: ops) → Sound v q op ∧
      ∀ o q' v', Seq.step n q op = some (o, q') → v.step b e op = .ok (o, v') → Rep n v' q' → P v' q' ops) :
    ∀ (ops : List (Op α)) (v : Vec α) (q : List α) (outs : List (Out α)) (q' : List α),
      Rep n v q → P v q ops → Seq.run n q ops = some (outs, q') →
      ∃ v', v.run b e ops = .ok (outs, v') ∧ Rep n v' q' ∧ P v' q' []
  | [], v, q, outs, q', hr, hp, h => by
    simp only [Seq.run, Option.some.injEq, Prod.mk.injEq] at h
    obtain ⟨rfl, rfl⟩ := h
    exact ⟨v, rfl, hr, hp⟩
  | op :: ops, v, q, outs, q', hr, hp, h => by
    obtain ⟨o, q1, os, h1, h2, rfl⟩ := seq_run_cons h
    obtain ⟨hs, hnext⟩ := hP v q op ops hr hp
    obtain ⟨v1, h3, h4, _⟩ := hr.step (b := b) (e := e) h1 hs
    obtain ⟨v2, h5, h6, h7⟩ := Rep.run P hP ops v1 q1 os q' h4 (hnext o q1 v1 h1 h3 h4) h2
    exact ⟨v2, by simp [Vec.run, h3, h5], h6, h7⟩

/-- Slots outside the window are cleared and the vector owns exactly its elements. -/
def Exact [DecidableEq α] (e : Elem α) (n : Nat) (v : Vec α) (q : List α) : Prop :=
  ∃ pre post log, v = mk' pre q post log ∧ pre.length + q.length + post.length = n ∧ n < sizeMod ∧
    (∀ x ∈ pre ++ post, x = e.zero) ∧ ∀ x, x ≠ e.zero → Seq.owned x log = q.count x

theorem Exact.rep [DecidableEq α] {n : Nat} {v : Vec α} (h : Exact e n v q) : Rep n v q := by
  obtain ⟨pre, post, log, h1, h2, h3, _⟩ := h
  exact ⟨pre, post, log, h1, h2, h3⟩

theorem Exact.step [DecidableEq α] {n : Nat} {v : Vec α} (h : Exact e n v q) {op : Op α} {o : Out α}
    {q' : List α} (hm : ∀ x, e.moved x = e.zero) (hstep : Seq.step n q op = some (o, q'))
    (hs : Sound v q op) (hc : Counts v op) :
    ∃ v', v.step b e op = .ok (o, v') ∧ Exact e n v' q' := by
  obtain ⟨pre, post, log, rfl, hl, hn, hz, ho⟩ := h
  obtain ⟨pre', post', log', h, hlen, _, hx⟩ := step_spec (b := b) (e := e) hl hn op hstep hs
  obtain ⟨hz', ho'⟩ := hx inferInstance hm hc hz
  refine ⟨_, h, pre', post', log', rfl, by omega, hn, hz', fun x hne => ?_⟩
  have := ho' x hne; have := ho x hne; omega

end Spine.Vec
