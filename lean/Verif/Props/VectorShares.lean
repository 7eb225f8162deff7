import Verif.Props.VectorObjects
/-!
# What copies, moved and swapped vectors are, exactly: C119
-/

namespace Spine

open World

variable {α : Type}

namespace Vecs

/-- Assignments to elements of two vectors, one after the other; `true` stands for the first one. -/
def assigns (b : Build) (h o : Nat) (v : Vecs α) : List (Bool × Nat × α) → Res (Vecs α)
  | [] => .ok v
  | (k, i, x) :: ws => do assigns b h o (← v.set b (if k then h else o) i x) ws

/-- Two vectors with the same elements in the same place. -/
def Twins (v : Vecs α) (h o : Nat) : Prop :=
  ∃ a a', v.arrs.obj h = .ok a ∧ v.arrs.obj o = .ok a' ∧ a.store = a'.store ∧ v.head h = v.head o ∧ v.tail h = v.tail o

theorem Twins.symm {v : Vecs α} {h o : Nat} (t : v.Twins h o) : v.Twins o h := by
  obtain ⟨a, a', h1, h2, h3, h4, h5⟩ := t
  exact ⟨a', a, h2, h1, h3.symm, h4.symm, h5.symm⟩

theorem Twins.shows {v : Vecs α} {h o : Nat} (t : v.Twins h o) {xs : List α} (hx : v.Shows h xs) : v.Shows o xs := by
  obtain ⟨a, a', h1, h2, h3, h4, h5⟩ := t
  obtain ⟨s1, s2⟩ := hx
  simp only [Shows, size, get, h1, h2, res_bind_ok, h3, h4, h5] at s1 s2 ⊢
  exact ⟨s1, s2⟩

/-- An assignment to an element. -/
theorem set_shows {v : Vecs α} {k : Nat} {xs : List α} (hx : v.Shows k xs) (b : Build) {i : Nat} (hi : i < xs.length) (x : α) :
    ∃ v', v.set b k i x = .ok v' ∧ v'.Shows k (xs.set i x) ∧ v'.head = v.head ∧ v'.tail = v.tail ∧ v'.arrs.objs = v.arrs.objs := by
  obtain ⟨s1, s2⟩ := hx
  cases ho : v.arrs.obj k with
  | error e => simp [size, ho] at s1
  | ok a =>
    have hsz := s1
    simp only [size, ho, res_bind_ok] at hsz
    have hdec : ∀ j, j < xs.length → decide (v.head k + j < v.tail k) = true := by
      intro j hj
      have := s2 .debug j hj
      simp only [get, ho, res_bind_ok] at this
      cases hd : decide (v.head k + j < v.tail k)
      · rw [hd] at this; simp [spnAssert] at this
      · rfl
    have hload : ∀ j (hj : j < xs.length), v.arrs.load a.store (v.head k + j) = .ok xs[j] := by
      intro j hj
      have := s2 .debug j hj
      simpa only [get, ho, res_bind_ok, hdec j hj, spnAssert_true] using this
    have h0 := hload i hi
    cases hb : v.arrs.block a.store with
    | error e => rw [load, hb] at h0; cases h0
    | ok m =>
      have hread : ∀ j (hj : j < xs.length), m[v.head k + j]? = some xs[j] := by
        intro j hj
        have := hload j hj
        rw [load, hb, res_bind_ok, rd] at this
        cases hm : m[v.head k + j]? with
        | none => rw [hm] at this; cases this
        | some y => rw [hm] at this; exact congrArg some (Except.ok.inj this)
      have hlt : v.head k + i < m.length := (List.getElem?_eq_some_iff.mp (hread i hi)).1
      have hsave : v.arrs.save a.store (v.head k + i) x = .ok (v.arrs.setBlock a.store (m.set (v.head k + i) x)) := by
        simp only [save, hb, res_bind_ok, wr, if_pos hlt, res_pure]
      have hobjs : (v.arrs.setBlock a.store (m.set (v.head k + i) x)).objs = v.arrs.objs := by cases a.store <;> rfl
      have hobj : (v.arrs.setBlock a.store (m.set (v.head k + i) x)).obj k = .ok a := by unfold obj at ho ⊢; rw [hobjs]; exact ho
      refine ⟨{ v with arrs := v.arrs.setBlock a.store (m.set (v.head k + i) x) }, ?_, ⟨?_, ?_⟩, rfl, rfl, hobjs⟩
      · simp only [set, ho, res_bind_ok, hdec i hi, spnAssert_true, hsave, res_pure]
      · simp only [size, hobj, res_bind_ok, List.length_set]; exact hsz
      · intro b' j hj
        rw [List.length_set] at hj
        simp only [get, hobj, res_bind_ok, hdec j hj, spnAssert_true]
        rw [load_setBlock hb, rd, List.getElem?_set]
        by_cases hij : i = j
        · subst hij
          simp [hlt]
        · rw [if_neg (by omega), hread j hj]
          simp [List.getElem_set, hij]

theorem assigns_twins (b : Build) {h o : Nat} (ws : List (Bool × Nat × α)) : ∀ (v : Vecs α) (xs : List α), v.Twins h o → v.Shows h xs → (∀ w ∈ ws, w.2.1 < xs.length) →
    ∃ v', v.assigns b h o ws = .ok v' ∧ v'.Shows h (ws.foldl (fun l w => l.set w.2.1 w.2.2) xs) ∧ v'.Shows o (ws.foldl (fun l w => l.set w.2.1 w.2.2) xs) := by
  induction ws with
  | nil => intro v xs ht hx _; exact ⟨v, rfl, hx, ht.shows hx⟩
  | cons w ws ih =>
    intro v xs ht hx hw
    obtain ⟨k, i, x⟩ := w
    have hi := hw (k, i, x) List.mem_cons_self
    have hk : v.Shows (if k then h else o) xs := by
      cases k
      · exact ht.shows hx
      · exact hx
    obtain ⟨v', e1, e2, e3, e4, e5⟩ := set_shows hk b hi x
    have ht' : v'.Twins h o := by
      obtain ⟨a, a', h1, h2, h3, h4, h5⟩ := ht
      unfold obj at h1 h2
      refine ⟨a, a', ?_, ?_, h3, by rw [e3, h4], by rw [e4, h5]⟩ <;> unfold obj <;> rw [e5] <;> assumption
    have hx' : v'.Shows h (xs.set i x) := by
      cases k
      · exact ht'.symm.shows e2
      · exact e2
    obtain ⟨v'', f1, f2, f3⟩ := ih v' (xs.set i x) ht' hx' (fun w hm => by rw [List.length_set]; exact hw w (List.mem_cons_of_mem _ hm))
    exact ⟨v'', by rw [assigns, e1, res_bind_ok, f1], f2, f3⟩

end Vecs

/-- **C119, exactly, for copies.** A copy and its original are the same vector, as far as the elements go, for any vector, copied by constructor or by assignment, and any assignments to elements of
either afterwards: both show all of them. So no copy of a vector with elements is independent of it. -/
theorem C119_shares {v : Vecs α} {h o : Nat} (hne : h ≠ o) {xs : List α} (hx : v.Shows o xs) :
    (∃ v', v.copy h o = .ok v' ∧ ∀ (b : Build) (ws : List (Bool × Nat × α)), (∀ w ∈ ws, w.2.1 < xs.length) → ∃ v'', v'.assigns b h o ws = .ok v'' ∧
      v''.Shows h (ws.foldl (fun l w => l.set w.2.1 w.2.2) xs) ∧ v''.Shows o (ws.foldl (fun l w => l.set w.2.1 w.2.2) xs)) ∧
    (v.arrs.objs h ≠ none → ∃ v', v.copyAssign h o = .ok v' ∧ ∀ (b : Build) (ws : List (Bool × Nat × α)), (∀ w ∈ ws, w.2.1 < xs.length) → ∃ v'', v'.assigns b h o ws = .ok v'' ∧
      v''.Shows h (ws.foldl (fun l w => l.set w.2.1 w.2.2) xs) ∧ v''.Shows o (ws.foldl (fun l w => l.set w.2.1 w.2.2) xs)) := by
  have hno : o ≠ h := fun e => hne e.symm
  obtain ⟨⟨v1, c1, c2, c3⟩, -, hca⟩ := C119_copy_partial hne hx
  cases ho : v.arrs.obj o with
  | error e => have := hx.1; simp [Vecs.size, ho] at this
  | ok a =>
    have hobj := obj_ok.mp ho
    have key : (⟨v.arrs.put h ⟨a.store, a.maxSize, false⟩, upd v.head h (v.head o), upd v.tail h (v.tail o)⟩ : Vecs α).Twins h o := by
      refine ⟨⟨a.store, a.maxSize, false⟩, a, by simp [World.obj, World.put], by rw [obj_ok]; simp [World.put, upd_ne _ _ hno, hobj], rfl, by simp [upd_ne _ _ hno], by simp [upd_ne _ _ hno]⟩
    refine ⟨⟨v1, c1, fun b ws hw => ?_⟩, fun hh => ?_⟩
    · have : v1 = ⟨v.arrs.put h ⟨a.store, a.maxSize, false⟩, upd v.head h (v.head o), upd v.tail h (v.tail o)⟩ := by
        simp only [Vecs.copy, World.copy, ho, res_bind_ok, res_pure] at c1
        exact (Except.ok.inj c1).symm
      exact Vecs.assigns_twins b ws v1 xs (this ▸ key) c2 hw
    · obtain ⟨⟨v2, d1, d2, d3⟩, -⟩ := hca hh
      obtain ⟨a', ha'⟩ := Option.ne_none_iff_exists'.mp hh
      refine ⟨v2, d1, fun b ws hw => ?_⟩
      have : v2 = ⟨v.arrs.put h ⟨a.store, a.maxSize, false⟩, upd v.head h (v.head o), upd v.tail h (v.tail o)⟩ := by
        simp only [Vecs.copyAssign, World.copyAssign, obj_ok.mpr ha', ho, res_bind_ok, res_pure, if_neg hne] at d1
        exact (Except.ok.inj d1).symm
      exact Vecs.assigns_twins b ws v2 xs (this ▸ key) d2 hw

/-- **C119, exactly, for what was moved from,** for any vector with elements: it keeps its size, and reading or writing any element is undefined. An empty vector stays empty. -/
theorem C119_moved_from {v : Vecs α} {h o : Nat} (hne : h ≠ o) {xs : List α} (hx : v.Shows o xs) :
    ∃ v', v.move h o = .ok v' ∧ v'.size o = .ok xs.length ∧ ∀ (b : Build) i, i < xs.length → v'.get b o i = .error .ub ∧ ∀ x, v'.set b o i x = .error .ub := by
  have hno : o ≠ h := fun e => hne e.symm
  obtain ⟨s1, s2⟩ := hx
  cases ho : v.arrs.obj o with
  | error e => simp [Vecs.size, ho] at s1
  | ok a =>
    refine ⟨_, by simp only [Vecs.move, World.move, ho, res_bind_ok, res_pure]; rfl, ?_, fun b i hi => ?_⟩
    · simp only [Vecs.size, ho, res_bind_ok] at s1
      simpa [Vecs.size, Vecs.window, World.obj, World.put, upd_ne _ _ hno] using s1
    · have hdec : decide (v.head o + i < v.tail o) = true := by
        have := s2 .debug i hi
        simp only [Vecs.get, ho, res_bind_ok] at this
        cases hd : decide (v.head o + i < v.tail o)
        · rw [hd] at this; simp [spnAssert] at this
        · rfl
      constructor
      · simp [Vecs.get, Vecs.window, World.obj, World.put, upd_ne _ _ hno, hdec, World.load, World.block]
      · intro x
        simp [Vecs.set, Vecs.window, World.obj, World.put, upd_ne _ _ hno, hdec, World.save, World.block]

/-- C119 (partial), swaps: two vectors with as many elements as one another, and as many removed from the front, are exchanged. Missing: other vectors (`C119_swap_counterexample`). -/
theorem C119_swap_partial {v : Vecs α} {h o : Nat} (hne : h ≠ o) {xs ys : List α} (hx : v.Shows h xs) (hy : v.Shows o ys) (hhead : v.head h = v.head o) (htail : v.tail h = v.tail o) :
    ∃ v', v.swap h o = .ok v' ∧ v'.Shows h ys ∧ v'.Shows o xs := by
  have hno : o ≠ h := fun e => hne e.symm
  obtain ⟨s1, s2⟩ := hx
  obtain ⟨r1, r2⟩ := hy
  cases ho : v.arrs.obj o with
  | error e => simp [Vecs.size, ho] at r1
  | ok a =>
    cases hh : v.arrs.obj h with
    | error e => simp [Vecs.size, hh] at s1
    | ok c =>
      have ho' : (v.arrs.put h { c with store := a.store }).obj o = .ok a := by
        rw [obj_ok]; simp [World.put, upd_ne _ _ hno, obj_ok.mp ho]
      have e1 : ((v.arrs.put h { c with store := a.store }).put o { a with store := c.store }).obj h = .ok { c with store := a.store } := by
        rw [obj_ok]; simp [World.put, upd_ne _ _ hne]
      have e2 : ((v.arrs.put h { c with store := a.store }).put o { a with store := c.store }).obj o = .ok { a with store := c.store } := by
        rw [obj_ok]; simp [World.put]
      have hload : ∀ p i, ((v.arrs.put h { c with store := a.store }).put o { a with store := c.store }).load p i = v.arrs.load p i := fun p i => by cases p <;> rfl
      refine ⟨{ v with arrs := (v.arrs.put h { c with store := a.store }).put o { a with store := c.store } }, by simp only [Vecs.swap, World.swap, ho, hh, ho', res_bind_ok, res_pure],
        ⟨?_, fun b i hi => ?_⟩, ⟨?_, fun b i hi => ?_⟩⟩
      · simp only [Vecs.size, ho, e1, res_bind_ok] at r1 ⊢
        rw [hhead, htail]; exact r1
      · have := r2 b i hi
        simp only [Vecs.get, ho, e1, res_bind_ok] at this ⊢
        rw [hload, hhead, htail]; exact this
      · simp only [Vecs.size, hh, e2, res_bind_ok] at s1 ⊢
        rw [← hhead, ← htail]; exact s1
      · have := s2 b i hi
        simp only [Vecs.get, hh, e2, res_bind_ok] at this ⊢
        rw [hload, ← hhead, ← htail]; exact this

/-- Non-trivial case for all three: the vectors `[1, 2]` and `[3, 4]`. -/
example : ∃ v : Vecs Nat, ((Vecs.start fun _ => []).ofList 0 0 [1, 2] >>= fun v => v.ofList 0 1 [3, 4]) = .ok v ∧ v.Shows 0 [1, 2] ∧ v.Shows 1 [3, 4] ∧
    v.head 0 = v.head 1 ∧ v.tail 0 = v.tail 1 ∧
    (v.copy 2 0 >>= fun v => v.assigns .debug 2 0 [(true, 0, 5), (false, 1, 6)] >>= fun v => do return (← v.get .debug 2 0, ← v.get .debug 0 0, ← v.get .debug 2 1)) = .ok (5, 5, 6) := by
  refine ⟨_, rfl, ⟨rfl, fun b i hi => ?_⟩, ⟨rfl, fun b i hi => ?_⟩, rfl, rfl, rfl⟩
  · match i, hi with
    | 0, _ => cases b <;> rfl
    | 1, _ => cases b <;> rfl
  · match i, hi with
    | 0, _ => cases b <;> rfl
    | 1, _ => cases b <;> rfl

end Spine
