import Verif.Props.Array
/-!
# Exactly when the partial claims about `Array` hold

C67, C68 and C70 are false of the code. Here it is shown how far: which programs lose memory, and that no copy of an array with elements is independent of the original.
-/

namespace Spine

variable {α : Type}

namespace World

/-- A program's histories as in `Reachable`, with a note whether a whole array was ever assigned (by copy or move) to another array that owned memory. -/
inductive History (zero : α) : World α → Prop → Prop
  | start (ext : Nat → List α) : History zero (World.start ext) False
  | step {w w' : World α} {op : Op α} {overwritten : Prop} : History zero w overwritten → w.Legal op → w.Matched op → w.step zero op = .ok w' →
      History zero w' (overwritten ∨ ∃ h o i, (op = .copyAssign h o ∨ op = .moveAssign h o) ∧ h ≠ o ∧ w.Owns h i)

/-- Block `i` is allocated, and no array will free it. -/
structure Lost (w : World α) (i : Nat) : Prop where
  live : w.heap i ≠ none
  nobody : ∀ h, ¬ w.Owns h i

theorem Lost.shape {w w' : World α} {i : Nat} (h : Lost w i) (hs : SameShape w w') : Lost w' i :=
  ⟨fun hn => h.live ((hs.live i).mp hn), fun k hk => h.nobody k ((hs.owns k i).mp hk)⟩

theorem Lost.create {w : World α} {i : Nat} (hi : Inv w) (h : Lost w i) (zero : α) (k n : Nat) : Lost (w.create zero k n) i := by
  have hlt := hi.fresh i h.live
  refine ⟨?_, fun j => ?_⟩
  · simp only [World.create, malloc, put, upd_apply, if_neg (Nat.ne_of_lt hlt)]
    exact h.live
  · have : ∀ (u : World α), u.objs = w.objs → ¬ (u.put k ⟨.heap w.next, n, true⟩).Owns j i := by
      intro u hu
      rw [owns_put]
      split
      · simp only [Ptr.heap.injEq, true_and]; omega
      · have := h.nobody j
        simpa only [Owns, hu] using this
    exact this _ rfl

theorem Lost.freed {w : World α} {i k : Nat} {a : Arr} (h : Lost w i) (ha : w.objs k = some a) : Lost (w.freed a) i := by
  refine ⟨?_, h.nobody⟩
  simp only [World.freed]
  rw [if_neg fun hc => h.nobody k ⟨a, ha, hc.1, hc.2⟩]
  exact h.live

theorem obj_bind {w : World α} {k : Nat} {β : Type} {f : Arr → Res β} {r : β} (he : (w.obj k >>= f) = .ok r) : ∃ a, w.objs k = some a ∧ f a = .ok r := by
  cases ho : w.obj k with
  | error e => rw [ho] at he; cases he
  | ok a => rw [ho] at he; exact ⟨a, obj_ok.mp ho, he⟩

/-- What is lost stays lost, whatever the program does. -/
theorem Lost.step {zero : α} {w w' : World α} {i : Nat} (hi : Inv w) (h : Lost w i) {op : Op α} (hm : w.Matched op) (hs : w.step zero op = .ok w') : Lost w' i := by
  cases op with
  | create k n => cases hs; exact h.create hi zero k n
  | createFilled k n x =>
    obtain ⟨w1, h1, h2⟩ := createFilled_spec zero w k n x
    rw [World.step, h1] at hs; cases hs
    exact (h.create hi zero k n).shape h2
  | ofList k xs =>
    obtain ⟨w1, h1, h2⟩ := ofListTemp_spec zero w xs
    simp only [World.step, World.ofList, h1, res_bind_ok, res_pure] at hs
    cases hs
    exact (h.create hi zero k xs.length).shape (ofListTemp_put h2)
  | wrap k x =>
    cases hs
    refine ⟨h.live, fun j => ?_⟩
    rw [World.wrap, owns_put]
    split
    · simp
    · exact h.nobody j
  | copy k o =>
    obtain ⟨a, ha, he⟩ := obj_bind hs
    cases he
    refine ⟨h.live, fun j => ?_⟩
    rw [owns_put]
    split
    · simp
    · exact h.nobody j
  | move k o =>
    obtain ⟨a, ha, he⟩ := obj_bind hs
    cases he
    refine ⟨h.live, fun j => ?_⟩
    rw [owns_put, owns_put]
    split
    · simp
    · split
      · exact fun hc => h.nobody o ⟨a, ha, hc.1, hc.2⟩
      · exact h.nobody j
  | copyAssign k o =>
    obtain ⟨a, ha, he⟩ := obj_bind hs
    obtain ⟨c, hc, he⟩ := obj_bind he
    split at he
    · cases he; exact h
    · cases he
      refine ⟨h.live, fun j => ?_⟩
      rw [owns_put]
      split
      · simp
      · exact h.nobody j
  | moveAssign k o =>
    obtain ⟨a, ha, he⟩ := obj_bind hs
    obtain ⟨c, hc, he⟩ := obj_bind he
    split at he
    · cases he; exact h
    · cases he
      refine ⟨h.live, fun j => ?_⟩
      rw [owns_put, owns_put]
      split
      · simp
      · split
        · exact fun hc' => h.nobody o ⟨c, hc, hc'.1, hc'.2⟩
        · exact h.nobody j
  | listAssign k xs =>
    obtain ⟨a, ha, he⟩ := obj_bind hs
    rw [hi.free_ok ha, res_bind_ok] at he
    obtain ⟨w1, h1, h2⟩ := ofListTemp_spec zero (w.freed a) xs
    rw [h1, res_bind_ok] at he
    cases he
    have hl := h.freed ha
    have hlt : i < (w.freed a).next := hi.fresh i h.live
    refine ⟨?_, fun j => ?_⟩
    · intro hn
      have := (h2.live i).mp hn
      simp only [malloc, upd_apply, if_neg (Nat.ne_of_lt hlt)] at this
      exact hl.live this
    · rw [owns_put]
      split
      · simp only [Ptr.heap.injEq, true_and]; omega
      · rw [h2.owns]; exact hl.nobody j
  | swap k o =>
    obtain ⟨a, ha, he⟩ := obj_bind hs
    obtain ⟨c, hc, he⟩ := obj_bind he
    have hint : a.internal = c.internal := hm a c ha hc
    by_cases hko : o = k
    · subst hko
      rw [ha] at hc; cases hc
      simp only [obj, put, upd_same, res_bind_ok, res_pure] at he
      cases he
      refine ⟨h.live, fun j => ?_⟩
      rintro ⟨d, hd, h1, h2⟩
      simp only [upd_apply] at hd
      split at hd
      · cases hd; exact h.nobody o ⟨a, ha, h1, h2⟩
      · exact h.nobody j ⟨d, hd, h1, h2⟩
    · simp only [obj, put, upd_ne _ _ hko, hc, res_bind_ok, res_pure] at he
      cases he
      refine ⟨h.live, fun j => ?_⟩
      rintro ⟨d, hd, h1, h2⟩
      simp only [upd_apply] at hd
      split at hd
      · cases hd; exact h.nobody k ⟨a, ha, hint.trans h1, h2⟩
      · split at hd
        · cases hd; exact h.nobody o ⟨c, hc, hint.symm.trans h1, h2⟩
        · exact h.nobody j ⟨d, hd, h1, h2⟩
  | destroy k =>
    obtain ⟨a, ha, he⟩ := obj_bind hs
    rw [hi.free_ok ha, res_bind_ok] at he
    cases he
    have hl := h.freed ha
    exact ⟨hl.live, fun j hj => hl.nobody j (owns_drop.mp hj).2⟩
  | set k j x =>
    obtain ⟨a, ha, he⟩ := obj_bind hs
    exact h.shape (save_shape he)
  | fill k x => exact h.shape (fill_shape hs)

theorem History.reachable {zero : α} {w : World α} {P : Prop} (h : History zero w P) : Reachable zero w := by
  induction h with
  | start ext => exact .start ext
  | step _ hl hm hs ih => exact .step ih hl hm hs

theorem Reachable.history {zero : α} {w : World α} (h : Reachable zero w) : ∃ P, History zero w P := by
  induction h with
  | start ext => exact ⟨_, .start ext⟩
  | step _ hl hm hs ih => obtain ⟨P, hP⟩ := ih; exact ⟨_, .step hP hl hm hs⟩

/-- The assignment itself loses the block. -/
theorem lost_of_assign {zero : α} {w w' : World α} (hi : Inv w) {op : Op α} {h o i : Nat} (hop : op = .copyAssign h o ∨ op = .moveAssign h o) (hne : h ≠ o)
    (ho : w.Owns h i) (hs : w.step zero op = .ok w') : Lost w' i := by
  have hlive := hi.live h i ho
  have hsole : ∀ j, w.Owns j i → j = h := fun j hj => hi.sole j h i hj ho
  rcases hop with rfl | rfl
  · simp only [World.step, World.copyAssign] at hs
    obtain ⟨a, ha, he⟩ := obj_bind hs
    obtain ⟨c, hc, he⟩ := obj_bind he
    rw [if_neg hne] at he
    cases he
    refine ⟨hlive, fun j => ?_⟩
    rw [owns_put]
    split
    · simp
    · exact fun hj => absurd (hsole j hj) ‹_›
  · simp only [World.step, World.moveAssign] at hs
    obtain ⟨a, ha, he⟩ := obj_bind hs
    obtain ⟨c, hc, he⟩ := obj_bind he
    rw [if_neg hne] at he
    cases he
    refine ⟨hlive, fun j => ?_⟩
    rw [owns_put, owns_put]
    split
    · simp
    · split
      · exact fun hc' => hne (hsole o ⟨c, hc, hc'.1, hc'.2⟩).symm
      · exact fun hj => absurd (hsole j hj) ‹_›

theorem History.keeps {zero : α} {w : World α} {P : Prop} (h : History zero w P) : (¬ P → NoLeak w) ∧ (P → ∃ i, Lost w i) := by
  induction h with
  | start ext => exact ⟨fun _ => NoLeak.start ext, fun hf => hf.elim⟩
  | @step w w' op P hh hl hm hs ih =>
    have hinv := hh.reachable.inv
    refine ⟨fun hn => ?_, ?_⟩
    · refine (step_any zero hinv op hl hm hs).2 (ih.1 fun hp => hn (.inl hp)) ?_
      cases op with
      | copyAssign k o => exact Classical.or_iff_not_imp_left.mpr fun hne i hown => hn (.inr ⟨k, o, i, .inl rfl, hne, hown⟩)
      | moveAssign k o => exact Classical.or_iff_not_imp_left.mpr fun hne i hown => hn (.inr ⟨k, o, i, .inr rfl, hne, hown⟩)
      | _ => trivial
    · rintro (hp | ⟨k, o, i, hop, hne, hown⟩)
      · obtain ⟨i, hi⟩ := ih.2 hp
        exact ⟨i, hi.step hinv hm hs⟩
      · exact ⟨i, lost_of_assign hinv hop hne hown hs⟩

end World

open World

/-! ## C67 -/

/-- **C67, exactly.** When all arrays of a program have been destroyed, all memory has been freed if and only if no whole array was ever assigned, by copy or move, to another
array that owned memory at that time. -/
theorem C67_exact {zero : α} {w : World α} {overwritten : Prop} (h : World.History zero w overwritten) (hall : ∀ k, w.objs k = none) :
    (∀ i, w.heap i = none) ↔ ¬ overwritten := by
  refine ⟨fun hn hp => ?_, fun hn i => ?_⟩
  · obtain ⟨i, hi⟩ := h.keeps.2 hp
    exact hi.live (hn i)
  · refine Classical.byContradiction fun hc => ?_
    obtain ⟨k, a, ha, _⟩ := h.keeps.1 hn i hc
    rw [hall k] at ha; cases ha

/-- Every reachable state has such a history, so the hypothesis of `C67_exact` restricts nothing. -/
theorem C67_histories {zero : α} {w : World α} (h : World.Reachable zero w) : ∃ overwritten, World.History zero w overwritten := h.history

/-- Non-vacuity, with a leak: array 0 owns a block when array 1 is moved into it, and both are destroyed. -/
example : ∃ (w : World Nat) (P : Prop), World.History 0 w P ∧ P ∧ (∀ k, w.objs k = none) ∧ w.heap 0 = some [0] := by
  obtain ⟨w, hw, hall, h0⟩ := C67_move_assign_counterexample (0 : Nat) (fun _ => [])
  have h0' : World.History (0 : Nat) (World.start fun _ => []) False := .start _
  have h1 := h0'.step (op := .create 0 1) (w' := (World.start fun _ => []).create 0 0 1) rfl trivial rfl
  have h2 := h1.step (op := .create 1 2) (w' := ((World.start fun _ => []).create 0 0 1).create 0 1 2) rfl trivial rfl
  have h3 := h2.step (op := .moveAssign 0 1) ⟨by decide, by decide⟩ trivial rfl
  have h4 := h3.step (op := .destroy 0) (fun h => nomatch h) trivial rfl
  have h5 := h4.step (op := .destroy 1) (fun h => nomatch h) trivial (w' := w) hw
  refine ⟨w, _, h5, .inl (.inl (.inr ⟨0, 1, 0, .inr rfl, by decide, ⟨_, rfl, rfl, rfl⟩⟩)), hall, h0⟩

/-! ## C68 -/

/-- Two arrays over the same memory show the same after a write to either. -/
theorem World.set_shared {w : World α} {g k : Nat} {a c : Arr} (hg : w.obj g = .ok a) (hk : w.obj k = .ok c) (hst : c.store = a.store)
    (hsz : c.maxSize = a.maxSize) {xs : List α} (hx : w.Shows g xs) {i : Nat} (hi : i < xs.length) (x : α) :
    ∃ w', w.set g i x = .ok w' ∧ w'.Shows g (xs.set i x) ∧ w'.Shows k (xs.set i x) := by
  obtain ⟨w', h1, h2⟩ := C72_set hx hi x
  refine ⟨w', h1, h2, ?_⟩
  have hobj : w'.objs = w.objs := by
    simp only [World.set, hg, res_bind_ok] at h1
    exact (save_shape h1).objs
  have hg' : w'.obj g = .ok a := by rw [obj_ok, hobj]; exact obj_ok.mp hg
  have hk' : w'.obj k = .ok c := by rw [obj_ok, hobj]; exact obj_ok.mp hk
  obtain ⟨hs, hr⟩ := h2
  refine ⟨?_, fun j hj => ?_⟩
  · simp only [World.size, hg', hk', res_bind_ok, res_pure] at hs ⊢
    rw [hsz]; exact hs
  · have := hr j hj
    simp only [World.get, hg', hk', res_bind_ok] at this ⊢
    rw [hst]; exact this

/-- **C68, exactly.** A copy of an array has the elements of the original, and it is the same memory: what is written to either is read from the other, for every array and
index. -/
theorem C68_shared {w : World α} {h o : Nat} (hne : h ≠ o) {xs : List α} (hx : w.Shows o xs) :
    ∃ w', w.copy h o = .ok w' ∧ ∀ i (x : α), i < xs.length →
      (∃ w'', w'.set o i x = .ok w'' ∧ w''.Shows o (xs.set i x) ∧ w''.Shows h (xs.set i x)) ∧
      ∃ w'', w'.set h i x = .ok w'' ∧ w''.Shows o (xs.set i x) ∧ w''.Shows h (xs.set i x) := by
  obtain ⟨a, ho, hn, -, -⟩ := hx.block
  obtain ⟨⟨w', h1, h2⟩, -⟩ := C68_copy_partial (h := h) hx
  refine ⟨w', h1, fun i x hi => ?_⟩
  have hw' : w' = w.put h ⟨a.store, a.maxSize, false⟩ := by
    simp only [World.copy, ho, res_bind_ok, res_pure] at h1
    exact (Except.ok.inj h1).symm
  have ho' : w'.obj o = .ok a := by
    rw [hw', obj_ok]; simp only [put, upd_ne _ _ (Ne.symm hne)]; exact obj_ok.mp ho
  have hh' : w'.obj h = .ok ⟨a.store, a.maxSize, false⟩ := by rw [hw', obj_ok]; simp [put]
  have hx' : w'.Shows o xs := by
    obtain ⟨hs, hr⟩ := h2
    refine ⟨?_, fun j hj => ?_⟩
    · simp only [World.size, ho', hh', res_bind_ok, res_pure] at hs ⊢; exact hs
    · have := hr j hj
      simp only [World.get, ho', hh', res_bind_ok] at this ⊢; exact this
  refine ⟨World.set_shared ho' hh' rfl rfl hx' hi x, ?_⟩
  obtain ⟨w'', h3, h4, h5⟩ := World.set_shared hh' ho' rfl rfl h2 hi x
  exact ⟨w'', h3, h5, h4⟩

/-- Non-vacuity: an array that shows two elements, and its copy after a write. -/
example : ∃ w w' w'' : World Nat, (World.start fun _ => []).ofList 0 0 [1, 2] = .ok w ∧ w.copy 1 0 = .ok w' ∧ w'.set 1 1 9 = .ok w'' ∧ w''.get 0 1 = .ok 9 :=
  ⟨_, _, _, rfl, rfl, rfl, rfl⟩

/-- If the original owns its memory, then reading any element of the copy after the original was destroyed is undefined behaviour. -/
theorem C68_dangling {zero : α} {w : World α} (hw : World.Reachable zero w) {h o i : Nat} (hne : h ≠ o) (hown : w.Owns o i) :
    ∃ w' w'', w.copy h o = .ok w' ∧ w'.destroy o = .ok w'' ∧ ∀ j, w''.get h j = .error .ub := by
  have hlive := hw.inv.live o i hown
  obtain ⟨a, ha, hint, hst⟩ := hown
  obtain ⟨m, hm⟩ := Option.ne_none_iff_exists'.mp hlive
  refine ⟨w.put h ⟨a.store, a.maxSize, false⟩, { (w.put h ⟨a.store, a.maxSize, false⟩) with heap := upd w.heap i none, objs := upd (upd w.objs h (some ⟨a.store, a.maxSize, false⟩)) o none },
    by simp only [World.copy, obj_ok.mpr ha, res_bind_ok, res_pure], ?_, fun j => ?_⟩
  · simp only [World.destroy, World.obj, put, upd_ne _ _ (Ne.symm hne), ha, res_bind_ok, World.release, hint, if_true, World.free, hst, hm, res_pure]
  · simp [World.get, World.obj, upd, hne, World.load, World.block, hst]

/-! ## C70 -/

/-- **C70, exactly.** After a move the source has its old size over a null pointer: whatever it held, reading any of its elements is undefined behaviour. So it is an empty array
if and only if it was empty before. -/
theorem C70_exact {w : World α} {h o : Nat} {xs : List α} (hx : w.Shows o xs) :
    ∃ w', w.move h o = .ok w' ∧ w'.size o = .ok xs.length ∧ (∀ i, w'.get o i = .error .ub) ∧ (w'.Shows o [] ↔ xs = []) := by
  obtain ⟨a, ho, hn, -, -⟩ := hx.block
  have h1 : w.move h o = .ok ((w.put h a).put o { a with store := .null }) := by
    simp only [World.move, ho, res_bind_ok, res_pure]
  have h2 : ((w.put h a).put o { a with store := .null }).obj o = .ok { a with store := .null } := by rw [obj_ok]; simp [put]
  have h3 : ((w.put h a).put o { a with store := .null }).size o = .ok xs.length := by rw [← hn]; simp only [World.size, h2, res_bind_ok, res_pure]
  refine ⟨_, h1, h3, fun i => by simp only [World.get, h2, res_bind_ok, World.load, World.block, res_bind_error], ⟨fun hs => ?_, fun he => ?_⟩⟩
  · have := hs.1
    rw [h3] at this
    exact List.length_eq_zero_iff.mp (Except.ok.inj this)
  · subst he
    exact ⟨h3, fun i hi => absurd hi (by simp)⟩

/-- Non-vacuity: an array that shows elements. -/
example : ∃ w : World Nat, (World.start fun _ => []).ofList 0 0 [1, 2] = .ok w ∧ w.Shows 0 [1, 2] ∧ w.Owns 0 0 := by
  obtain ⟨w, h1, h2⟩ := (C72_construct (0 : Nat) (World.start fun _ => []) 0).2.2.1 [1, 2]
  refine ⟨w, h1, h2, ?_⟩
  obtain rfl := Except.ok.inj h1
  exact ⟨_, rfl, rfl, rfl⟩

end Spine
