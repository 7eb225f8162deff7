import Verif.Proofs.Array
/-!
# Properties C26, C27 and C67-C72: `Array`

`World` holds the memory and the array objects of a program.  `World.Legal` says that an operation is one a
well-formed C++ program can make: every object is constructed once and used only between construction and
destruction.
-/

namespace Spine

variable {α : Type}

namespace World

/-- The worlds a program can get into, if every `swap` is between two arrays that both own their memory or
both do not (see `C26_swap_counterexample`). -/
inductive Reachable (zero : α) : World α → Prop
  | start (ext : Nat → List α) : Reachable zero (World.start ext)
  | step {w w' : World α} {op : Op α} : Reachable zero w → w.Legal op → w.Matched op → w.step zero op = .ok w' →
      Reachable zero w'

theorem Reachable.inv {zero : α} {w : World α} (h : Reachable zero w) : Inv w := by
  induction h with
  | start ext => exact Inv.start ext
  | step _ hl hm hs ih => exact (step_any zero ih _ hl hm hs).1

/-- A caller who looks at the array `h` sees `xs`. -/
def Shows (w : World α) (h : Nat) (xs : List α) : Prop :=
  w.size h = .ok xs.length ∧ ∀ i (hi : i < xs.length), w.get h i = .ok xs[i]

end World

open World

/-! ## C26 -/

/-- C26. In whatever state a program is, with any number of arrays over owned, foreign, copied and
moved storage, each constructor, assignment, swap and destruction runs without undefined behaviour: no block is
freed twice, and nothing is freed that did not come from `malloc`. -/
theorem C26_no_double_free {zero : α} {w : World α} (hw : World.Reachable zero w) (op : World.Op α)
    (hl : w.Legal op) (hm : w.Matched op) (hop : op.Lifecycle) : ∃ w', w.step zero op = .ok w' := by
  obtain ⟨w', h, _⟩ := step_lifecycle zero hw.inv op hl hm hop
  exact ⟨w', h⟩

/-- A history in which every operation is legal. -/
def World.LegalRun (zero : α) : World α → List (World.Op α) → Prop
  | _, [] => True
  | w, op :: ops => w.Legal op ∧ w.Matched op ∧ op.Lifecycle ∧ ∀ w', w.step zero op = .ok w' → LegalRun zero w' ops

/-- C26 for whole histories. -/
theorem C26_histories {zero : α} {w : World α} (hw : World.Reachable zero w) (ops : List (World.Op α))
    (hops : World.LegalRun zero w ops) : ∃ w', w.run zero ops = .ok w' ∧ World.Reachable zero w' := by
  induction ops generalizing w with
  | nil => exact ⟨w, rfl, hw⟩
  | cons op ops ih =>
    obtain ⟨hl, hm, hop, hnext⟩ := hops
    obtain ⟨w1, h1⟩ := C26_no_double_free hw op hl hm hop
    obtain ⟨w2, h2, h3⟩ := ih (.step hw hl hm h1) (hnext w1 h1)
    exact ⟨w2, by simp only [World.run, h1, res_bind_ok, h2], h3⟩

/-- Non-vacuity: construct, copy, move, assign, assign a list, destroy everything. -/
example : World.LegalRun (0 : Nat) (World.start fun _ => [])
    [.create 0 3, .copy 1 0, .move 2 0, .moveAssign 0 2, .listAssign 0 [4, 5], .destroy 2, .destroy 0, .destroy 1] := by
  simp [World.LegalRun, Legal, Matched, Op.Lifecycle, World.step, World.start, World.create, World.copy, World.move,
    World.moveAssign, World.listAssign, World.destroy, World.release, World.obj, World.put, World.malloc, World.free, upd,
    World.ofListTemp, World.save, World.block, World.setBlock, wr]

/-- What C26 leaves out: `swap` exchanges the pointers but not the ownership, so after swapping an owner with an array
over memory of the caller, destroying the owner frees memory of the caller. -/
theorem C26_swap_counterexample (zero : α) (ext : Nat → List α) :
    (World.start ext).run zero [.create 0 1, .wrap 1 0, .swap 0 1, .destroy 0] = .error .ub := by
  simp [World.run, World.step, World.start, World.create, World.wrap, World.swap, World.destroy, World.release, World.obj,
    World.put, World.malloc, World.free, upd]

/-- Likewise a block is freed twice after swapping an owner with a copy of another owner. -/
theorem C26_swap_copy_counterexample (zero : α) (ext : Nat → List α) :
    (World.start ext).run zero [.create 0 1, .create 1 1, .copy 2 1, .swap 0 2, .destroy 1, .destroy 0] = .error .ub := by
  simp [World.run, World.step, World.start, World.create, World.copy, World.swap, World.destroy, World.release, World.obj,
    World.put, World.malloc, World.free, upd]

/-! ## C67 -/

/-- A program that assigns whole arrays only to arrays which own no memory. -/
inductive World.ReachableKeeping (zero : α) : World α → Prop
  | start (ext : Nat → List α) : ReachableKeeping zero (World.start ext)
  | step {w w' : World α} {op : World.Op α} : ReachableKeeping zero w → w.Legal op → w.Matched op → w.Keeps op →
      w.step zero op = .ok w' → ReachableKeeping zero w'

/-- C67 (partial). When every array has been destroyed, all memory has been freed.
Missing: copy and move assignment to an array that owns memory, which leak it
(`C67_move_assign_counterexample`, `C67_copy_assign_counterexample`). Assigning a list is fine. -/
theorem C67_all_freed_partial {zero : α} {w : World α} (hw : World.ReachableKeeping zero w)
    (hall : ∀ h, w.objs h = none) (i : Nat) : w.heap i = none := by
  have : Inv w ∧ NoLeak w := by
    clear hall
    induction hw with
    | start ext => exact ⟨Inv.start ext, NoLeak.start ext⟩
    | step _ hl hm hk hs ih => exact ⟨(step_any zero ih.1 _ hl hm hs).1, (step_any zero ih.1 _ hl hm hs).2 ih.2 hk⟩
  by_cases h : w.heap i = none
  · exact h
  · obtain ⟨h, a, ha, _⟩ := this.2 i h
    rw [hall h] at ha; cases ha

/-- C67 is false: move assignment drops the only pointer to the old block. -/
theorem C67_move_assign_counterexample (zero : α) (ext : Nat → List α) :
    ∃ w, (World.start ext).run zero [.create 0 1, .create 1 2, .moveAssign 0 1, .destroy 0, .destroy 1] = .ok w ∧
      (∀ h, w.objs h = none) ∧ w.heap 0 = some [zero] := by
  refine ⟨_, rfl, fun h => ?_, rfl⟩
  by_cases h0 : h = 0
  · subst h0; rfl
  by_cases h1 : h = 1
  · subst h1; rfl
  simp [World.start, World.create, World.malloc, World.put, upd, h0, h1]

/-- C67 is false: so does copy assignment. -/
theorem C67_copy_assign_counterexample (zero : α) (ext : Nat → List α) :
    ∃ w, (World.start ext).run zero [.create 0 1, .create 1 2, .copyAssign 0 1, .destroy 0, .destroy 1] = .ok w ∧
      (∀ h, w.objs h = none) ∧ w.heap 0 = some [zero] := by
  refine ⟨_, rfl, fun h => ?_, rfl⟩
  by_cases h0 : h = 0
  · subst h0; rfl
  by_cases h1 : h = 1
  · subst h1; rfl
  simp [World.start, World.create, World.malloc, World.put, upd, h0, h1]

/-! ## C68 -/

/-- C68 (partial). A copy (constructor or assignment) has the size and the elements of the original.
Missing: independence of the original (`C68_alias_counterexample`, `C68_dangling_counterexample`). -/
theorem C68_copy_partial {w : World α} {h o : Nat} {xs : List α} (hx : w.Shows o xs) :
    (∃ w', w.copy h o = .ok w' ∧ w'.Shows h xs) ∧
    (w.objs h ≠ none → ∃ w', w.copyAssign h o = .ok w' ∧ w'.Shows h xs) := by
  obtain ⟨hs, hg⟩ := hx
  cases ho : w.obj o with
  | error e => simp [World.size, ho] at hs
  | ok a =>
    have hs' : a.maxSize = xs.length := by simpa [World.size, ho] using hs
    have key : (w.put h ⟨a.store, a.maxSize, false⟩).Shows h xs := by
      have h1 : (w.put h ⟨a.store, a.maxSize, false⟩).obj h = .ok ⟨a.store, a.maxSize, false⟩ := by
        rw [obj_ok]; simp [World.put]
      refine ⟨by simp only [World.size, h1, res_bind_ok, res_pure]; rw [hs'], fun i hi => ?_⟩
      have := hg i hi
      simp only [World.get, h1, ho, res_bind_ok] at this ⊢
      exact this
    refine ⟨⟨_, by simp only [World.copy, ho, res_bind_ok, res_pure], key⟩, fun hn => ?_⟩
    obtain ⟨a', ha'⟩ := Option.ne_none_iff_exists'.mp hn
    by_cases hho : h = o
    · subst hho
      exact ⟨w, by simp only [World.copyAssign, ho, res_bind_ok, res_pure, if_true], hs, hg⟩
    · exact ⟨_, by simp only [World.copyAssign, obj_ok.mpr ha', ho, res_bind_ok, res_pure, if_neg hho], key⟩

/-- C68 is false: writing to the original changes the copy. -/
theorem C68_alias_counterexample :
    ∃ w, (World.start fun _ => []).run (0 : Nat) [.ofList 0 [1, 2], .copy 1 0, .set 0 0 9] = .ok w ∧ w.get 1 0 = .ok 9 :=
  ⟨_, rfl, rfl⟩

/-- C68 is false: after the original is destroyed, reading the copy is undefined behaviour. -/
theorem C68_dangling_counterexample :
    ∃ w, (World.start fun _ => []).run (0 : Nat) [.ofList 0 [1, 2], .copy 1 0, .destroy 0] = .ok w ∧ w.size 1 = .ok 2 ∧
      w.get 1 0 = .error .ub := ⟨_, rfl, rfl, rfl⟩

/-! ## C69 -/

/-- C69 (partial). `swap` exchanges the contents of two arrays of equal size.
Missing: arrays of different sizes (`C69_swap_counterexample`). -/
theorem C69_swap_partial {w : World α} {h o : Nat} {xs ys : List α} (hx : w.Shows h xs) (hy : w.Shows o ys)
    (hlen : xs.length = ys.length) : ∃ w', w.swap h o = .ok w' ∧ w'.Shows h ys ∧ w'.Shows o xs := by
  obtain ⟨hs, hg⟩ := hx
  obtain ⟨hs', hg'⟩ := hy
  cases hh : w.obj h with
  | error e => simp [World.size, hh] at hs
  | ok a =>
    cases ho : w.obj o with
    | error e => simp [World.size, ho] at hs'
    | ok a' =>
      have h1 : a.maxSize = xs.length := by simpa [World.size, hh] using hs
      have h2 : a'.maxSize = ys.length := by simpa [World.size, ho] using hs'
      simp only [World.get, hh, ho, res_bind_ok] at hg hg'
      by_cases hho : h = o
      · subst hho
        rw [hh] at ho; cases ho
        have hxy : xs = ys := List.ext_getElem hlen fun i h3 h4 => by
          have := hg i h3; rw [hg' i h4] at this; exact (Except.ok.inj this).symm
        subst hxy
        have h3 : (w.put h a).obj h = .ok a := by rw [obj_ok]; simp [World.put]
        have h4 : ((w.put h a).put h a).obj h = .ok a := by rw [obj_ok]; simp [World.put]
        have key : ((w.put h a).put h a).Shows h xs :=
          ⟨by simp [World.size, h4, h1], fun i hi => by simp only [World.get, h4, res_bind_ok]; exact hg i hi⟩
        exact ⟨_, by simp only [World.swap, hh, h3, res_bind_ok, res_pure], key, key⟩
      · have h3 : (w.put h { a with store := a'.store }).obj o = .ok a' := by
          rw [obj_ok] at ho ⊢; simp only [World.put, upd_ne _ _ (Ne.symm hho)]; exact ho
        refine ⟨_, by simp only [World.swap, hh, ho, h3, res_bind_ok, res_pure]; rfl, ?_, ?_⟩
        · have h4 : ((w.put h { a with store := a'.store }).put o { a' with store := a.store }).obj h =
              .ok { a with store := a'.store } := by
            rw [obj_ok]; simp only [World.put, upd_ne _ _ hho, upd_same]
          exact ⟨by simp only [World.size, h4, res_bind_ok, res_pure]; rw [h1, hlen], fun i hi => by simp only [World.get, h4, res_bind_ok]; exact hg' i hi⟩
        · have h4 : ((w.put h { a with store := a'.store }).put o { a' with store := a.store }).obj o =
              .ok { a' with store := a.store } := by
            rw [obj_ok]; simp only [World.put, upd_same]
          exact ⟨by simp only [World.size, h4, res_bind_ok, res_pure]; rw [h2, hlen], fun i hi => by simp only [World.get, h4, res_bind_ok]; exact hg i hi⟩

/-- C69 is false for different sizes: the sizes stay behind, so the array that got the shorter block
claims elements past its end, and the other one lost some. -/
theorem C69_swap_counterexample :
    ∃ w, (World.start fun _ => []).run (0 : Nat) [.ofList 0 [1, 2], .ofList 1 [3], .swap 0 1] = .ok w ∧
      w.size 0 = .ok 2 ∧ w.get 0 1 = .error .ub ∧ w.size 1 = .ok 1 := ⟨_, rfl, rfl, rfl, rfl⟩

/-! ## C70 -/

/-- C70 (partial). Moving (constructor or assignment) hands size and elements to the target.
Missing: the source is not left empty (`C70_moved_from_counterexample`). -/
theorem C70_move_partial {w : World α} {h o : Nat} (hho : h ≠ o) {xs : List α} (hx : w.Shows o xs) :
    (∃ w', w.move h o = .ok w' ∧ w'.Shows h xs) ∧
    (w.objs h ≠ none → ∃ w', w.moveAssign h o = .ok w' ∧ w'.Shows h xs) := by
  obtain ⟨hs, hg⟩ := hx
  cases ho : w.obj o with
  | error e => simp [World.size, ho] at hs
  | ok a =>
    have hs' : a.maxSize = xs.length := by simpa [World.size, ho] using hs
    have key : ((w.put h a).put o { a with store := .null }).Shows h xs := by
      have h1 : ((w.put h a).put o { a with store := .null }).obj h = .ok a := by
        rw [obj_ok]; simp [World.put, upd, hho]
      refine ⟨by simp only [World.size, h1, res_bind_ok, res_pure]; rw [hs'], fun i hi => ?_⟩
      have := hg i hi
      simp only [World.get, h1, ho, res_bind_ok] at this ⊢
      exact this
    refine ⟨⟨_, by simp only [World.move, ho, res_bind_ok, res_pure], key⟩, fun hn => ?_⟩
    obtain ⟨a', ha'⟩ := Option.ne_none_iff_exists'.mp hn
    exact ⟨_, by simp only [World.moveAssign, obj_ok.mpr ha', ho, res_bind_ok, res_pure, if_neg hho], key⟩

/-- C70 is false: the source still claims its old size, and reading it dereferences a null pointer. -/
theorem C70_moved_from_counterexample :
    ∃ w, (World.start fun _ => []).run (0 : Nat) [.ofList 0 [1, 2], .move 1 0] = .ok w ∧ w.size 0 = .ok 2 ∧
      w.get 0 0 = .error .ub := ⟨_, rfl, rfl, rfl⟩

/-! ## C72 -/

theorem World.load_setBlock {w : World α} {p : Ptr} {m m' : List α} (hb : w.block p = .ok m) (i : Nat) :
    (w.setBlock p m').load p i = rd m' i := by
  cases p with
  | null => simp [World.block] at hb
  | heap j => simp [World.load, World.setBlock, World.block]
  | ext j => simp [World.load, World.setBlock, World.block]

/-- The block of an array, when a caller can read elements of it. -/
theorem World.Shows.block {w : World α} {h : Nat} {xs : List α} (hx : w.Shows h xs) :
    ∃ a, w.obj h = .ok a ∧ a.maxSize = xs.length ∧ (xs ≠ [] → ∃ m, w.block a.store = .ok m ∧ xs.length ≤ m.length) ∧
      ∀ m, w.block a.store = .ok m → xs <+: m := by
  obtain ⟨hs, hg⟩ := hx
  cases ho : w.obj h with
  | error e => simp [World.size, ho] at hs
  | ok a =>
    have hs' : a.maxSize = xs.length := by simpa [World.size, ho] using hs
    simp only [World.get, World.load, ho, res_bind_ok] at hg
    refine ⟨a, rfl, hs', fun hne => ?_, fun m hm => ?_⟩
    · have hpos := List.length_pos_iff.mpr hne
      have hlast := hg (xs.length - 1) (by omega)
      cases hb : w.block a.store with
      | error e => rw [hb] at hlast; simp at hlast
      | ok m =>
        rw [hb, res_bind_ok] at hlast
        refine ⟨m, rfl, ?_⟩
        unfold rd at hlast
        cases hm : m[xs.length - 1]? with
        | none => rw [hm] at hlast; simp at hlast
        | some y => have := (List.getElem?_eq_some_iff.mp hm).1; omega
    · rw [List.prefix_iff_eq_take]
      simp only [hm, res_bind_ok] at hg
      apply List.ext_getElem?
      intro i
      by_cases hi : i < xs.length
      · have := hg i hi
        rw [List.getElem?_take, if_pos hi, List.getElem?_eq_getElem hi]
        unfold rd at this
        cases hy : m[i]? with
        | none => rw [hy] at this; simp at this
        | some y => rw [hy] at this; simp at this; rw [this]
      · rw [List.getElem?_eq_none (by omega), List.getElem?_take, if_neg hi]

theorem World.shows_of_block {w : World α} {h : Nat} {a : Arr} {xs m : List α} (ho : w.obj h = .ok a) (hn : a.maxSize = xs.length)
    (hb : xs ≠ [] → w.block a.store = .ok m ∧ xs <+: m) : w.Shows h xs := by
  refine ⟨by simp [World.size, ho, hn], fun i hi => ?_⟩
  have hne : xs ≠ [] := by rintro rfl; simp at hi
  obtain ⟨h1, t, rfl⟩ := hb hne
  simp only [World.get, World.load, ho, res_bind_ok, h1, rd]
  rw [List.getElem?_append_left hi, List.getElem?_eq_getElem hi]

/-- C72, element access: writing a valid index changes exactly that element. -/
theorem C72_set {w : World α} {h : Nat} {xs : List α} (hx : w.Shows h xs) {i : Nat} (hi : i < xs.length) (x : α) :
    ∃ w', w.set h i x = .ok w' ∧ w'.Shows h (xs.set i x) := by
  obtain ⟨a, ho, hn, hb, hp⟩ := hx.block
  obtain ⟨m, hm, hlen⟩ := hb (by rintro rfl; simp at hi)
  obtain ⟨t, rfl⟩ := hp m hm
  refine ⟨w.setBlock a.store ((xs ++ t).set i x), ?_, ?_⟩
  · simp only [World.set, ho, res_bind_ok, World.save, hm, wr, if_pos (show i < (xs ++ t).length by omega), res_pure]
  · have ho' : (w.setBlock a.store ((xs ++ t).set i x)).obj h = .ok a := by
      rw [← ho]; cases a.store <;> rfl
    refine World.shows_of_block (m := (xs ++ t).set i x) ho' (by simp [hn]) fun _ => ⟨?_, ?_⟩
    · cases hs : a.store with
      | null => rw [hs] at hm; simp [World.block] at hm
      | heap j => simp [World.setBlock, World.block]
      | ext j => simp [World.setBlock, World.block]
    · rw [List.set_append_left _ _ hi]; exact List.prefix_append _ _

/-- C72, reading the ends. -/
theorem C72_front_back {w : World α} {h : Nat} {xs : List α} (hx : w.Shows h xs) (hne : xs ≠ []) :
    w.front h = .ok (xs.head hne) ∧ w.back h = .ok (xs.getLast hne) := by
  have hpos := List.length_pos_iff.mpr hne
  obtain ⟨a, ho, hn, -, -⟩ := hx.block
  have h1 := hx.2 0 hpos
  have h2 := hx.2 (xs.length - 1) (by omega)
  simp only [World.get, ho, res_bind_ok] at h1 h2
  constructor
  · simp only [World.front, ho, res_bind_ok, h1, List.head_eq_getElem]
  · simp only [World.back, ho, res_bind_ok, hn, if_pos hpos, h2, List.getLast_eq_getElem]

theorem World.foldSave_block {p : Ptr} {w : World α} {m : List α} (hb : w.block p = .ok m) (xs : List (α × Nat))
    (hx : ∀ y ∈ xs, y.2 < m.length) :
    ∃ w', xs.foldlM (fun (w : World α) y => w.save p y.2 y.1) w = .ok w' ∧ w'.objs = w.objs ∧
      w'.block p = .ok (xs.foldl (fun m y => m.set y.2 y.1) m) := by
  induction xs generalizing w m with
  | nil => exact ⟨w, rfl, rfl, hb⟩
  | cons y xs ih =>
    have h1 : w.save p y.2 y.1 = .ok (w.setBlock p (m.set y.2 y.1)) := by
      simp only [World.save, hb, res_bind_ok, wr, if_pos (hx y (by simp)), res_pure]
    have h2 : (w.setBlock p (m.set y.2 y.1)).block p = .ok (m.set y.2 y.1) := by
      cases p with
      | null => simp [World.block] at hb
      | heap j => simp [World.setBlock, World.block]
      | ext j => simp [World.setBlock, World.block]
    obtain ⟨w', h3, h4, h5⟩ := ih h2 (fun z hz => by simpa using hx z (by simp [hz]))
    refine ⟨w', by rw [List.foldlM_cons, h1, res_bind_ok, h3], ?_, h5⟩
    rw [h4]; cases p <;> rfl

theorem foldl_set_zipIdx (xs pre : List α) (m : List α) (hm : m.length = xs.length) :
    (xs.zipIdx pre.length).foldl (fun m y => m.set y.2 y.1) (pre ++ m) = pre ++ xs := by
  induction xs generalizing pre m with
  | nil => simp_all
  | cons x xs ih =>
    cases m with
    | nil => simp at hm
    | cons y m =>
      simp only [List.zipIdx_cons, List.foldl_cons]
      rw [List.set_append_right _ _ (Nat.le_refl _), Nat.sub_self, List.set_cons_zero]
      have := ih (pre ++ [x]) m (by simpa using hm)
      simpa using this

theorem foldl_set_range (x : α) (n : Nat) (m : List α) (hm : n ≤ m.length) :
    (List.range n).foldl (fun m i => m.set i x) m = List.replicate n x ++ m.drop n := by
  have key : ∀ k, k ≤ n → (List.range k).foldl (fun m i => m.set i x) m = List.replicate k x ++ m.drop k := by
    intro k
    induction k with
    | zero => simp
    | succ k ih =>
      intro hk
      rw [List.range_succ, List.foldl_append, ih (by omega)]
      simp only [List.foldl_cons, List.foldl_nil]
      rw [List.set_append_right _ _ (by simp), List.length_replicate, Nat.sub_self,
        List.drop_eq_getElem_cons (show k < m.length by omega), List.set_cons_zero, List.replicate_succ', List.append_assoc]
      rfl
  exact key n (Nat.le_refl n)

/-- C72, construction: of `n` zeroed elements, of `n` times `x`, from a list, over a caller's block. -/
theorem C72_construct (zero : α) (w : World α) (h : Nat) :
    (∀ n, (w.create zero h n).Shows h (List.replicate n zero)) ∧
    (∀ n x, ∃ w', w.createFilled zero h n x = .ok w' ∧ w'.Shows h (List.replicate n x)) ∧
    (∀ xs, ∃ w', w.ofList zero h xs = .ok w' ∧ w'.Shows h xs) ∧
    (∀ b, (w.wrap h b).Shows h (w.ext b)) := by
  have hobj : ∀ n, (w.create zero h n).obj h = .ok ⟨.heap w.next, n, true⟩ := fun n => by
    simp [World.obj, World.create, World.malloc, World.put]
  have hblk : ∀ n, (w.create zero h n).block (.heap w.next) = .ok (List.replicate n zero) := fun n => by
    simp [World.create, World.malloc, World.put, World.block]
  refine ⟨fun n => ?_, fun n x => ?_, fun xs => ?_, fun b => ?_⟩
  · exact World.shows_of_block (hobj n) (by simp) fun _ => ⟨hblk n, List.prefix_refl _⟩
  · obtain ⟨w', h1, h2, h3⟩ := World.foldSave_block (hblk n) ((List.range n).map fun i => (x, i)) (by simp)
    rw [List.foldlM_map] at h1
    rw [List.foldl_map, foldl_set_range _ _ _ (by simp)] at h3
    simp only [List.drop_replicate, Nat.sub_self, List.replicate_zero, List.append_nil] at h3
    refine ⟨w', by simp only [World.createFilled, World.fill, hobj, res_bind_ok]; exact h1, ?_⟩
    have : w'.obj h = .ok ⟨.heap w.next, n, true⟩ := by rw [← hobj n]; simp only [World.obj, h2]
    exact World.shows_of_block this (by simp) fun _ => ⟨h3, List.prefix_refl _⟩
  · have hblk' : (w.malloc zero xs.length).2.block (.heap w.next) = .ok (List.replicate xs.length zero) := by
      simp [World.malloc, World.block]
    obtain ⟨w', h1, h2, h3⟩ := World.foldSave_block hblk' xs.zipIdx
      (fun y hy => by have := List.snd_lt_of_mem_zipIdx hy; simpa using this)
    have h4 := foldl_set_zipIdx xs [] (List.replicate xs.length zero) (by simp)
    simp only [List.length_nil, List.nil_append] at h4
    rw [h4] at h3
    refine ⟨w'.put h ⟨.heap w.next, xs.length, true⟩, ?_, ?_⟩
    · simp only [World.ofList, World.ofListTemp]
      change ((List.foldlM (fun (u : World α) (y : α × Nat) => u.save (.heap w.next) y.2 y.1) (w.malloc zero xs.length).2 xs.zipIdx >>= _) >>= _) = _
      rw [h1]; rfl
    · exact World.shows_of_block (a := ⟨.heap w.next, xs.length, true⟩) (by simp [World.obj, World.put]) rfl
        fun _ => ⟨h3, List.prefix_refl _⟩
  · exact World.shows_of_block (m := w.ext b) (a := ⟨.ext b, (w.ext b).length, false⟩)
      (by simp [World.obj, World.wrap, World.put]) rfl fun _ => ⟨rfl, List.prefix_refl _⟩

/-- C72, `fill`. -/
theorem C72_fill {w : World α} {h : Nat} {xs : List α} (hx : w.Shows h xs) (x : α) :
    ∃ w', w.fill h x = .ok w' ∧ w'.Shows h (List.replicate xs.length x) := by
  obtain ⟨a, ho, hn, hb, hp⟩ := hx.block
  by_cases hne : xs = []
  · subst hne
    refine ⟨w, by simp [World.fill, ho, hn], hx⟩
  · obtain ⟨m, hm, hlen⟩ := hb hne
    obtain ⟨w', h1, h2, h3⟩ := World.foldSave_block hm ((List.range xs.length).map fun i => (x, i)) (by simp; omega)
    rw [List.foldlM_map] at h1
    rw [List.foldl_map, foldl_set_range _ _ _ hlen] at h3
    refine ⟨w', by simp only [World.fill, ho, res_bind_ok, hn]; exact h1, ?_⟩
    have : w'.obj h = .ok a := by rw [← ho]; simp only [World.obj, h2]
    exact World.shows_of_block this (by simp [hn]) fun _ => ⟨h3, List.prefix_append _ _⟩

/-- C72, assigning a list, whatever the array was before. -/
theorem C72_list_assign {zero : α} {w : World α} (hw : World.Reachable zero w) {h : Nat} (hh : w.objs h ≠ none) (xs : List α) :
    ∃ w', w.listAssign zero h xs = .ok w' ∧ w'.Shows h xs := by
  obtain ⟨a, ha⟩ := Option.ne_none_iff_exists'.mp hh
  obtain ⟨w', h1, h2⟩ := (C72_construct zero (w.freed a) h).2.2.1 xs
  refine ⟨w', ?_, h2⟩
  rw [← h1]
  simp only [World.listAssign, obj_ok.mpr ha, res_bind_ok, hw.inv.free_ok ha, World.ofList]
  rfl

/-- C72, frame: writing to one owning array changes no other owning array. -/
theorem C72_set_other {zero : α} {w w' : World α} (hw : World.Reachable zero w) {h k : Nat} (hne : h ≠ k) {a c : Arr}
    (ha : w.objs h = some a) (hc : w.objs k = some c) (hia : a.internal = true) (hic : c.internal = true)
    {i : Nat} {x : α} (hs : w.set h i x = .ok w') {xs : List α} (hx : w.Shows k xs) : w'.Shows k xs := by
  simp only [World.set, obj_ok.mpr ha, res_bind_ok, World.save] at hs
  cases hb : w.block a.store with
  | error e => rw [hb] at hs; cases hs
  | ok m =>
    rw [hb, res_bind_ok] at hs
    unfold wr at hs
    split at hs
    · rw [res_bind_ok, res_pure] at hs
      obtain rfl := Except.ok.inj hs
      have ho' : (w.setBlock a.store (m.set i x)).obj k = .ok c := by
        rw [obj_ok, ← hc]; cases a.store <;> rfl
      obtain ⟨h1, h2⟩ := hx
      refine ⟨?_, fun j hj => ?_⟩
      · simpa only [World.size, ho', obj_ok.mpr hc] using h1
      · rw [← h2 j hj]
        simp only [World.get, ho', obj_ok.mpr hc, res_bind_ok]
        have hd : c.store ≠ a.store ∨ c.store = .null := by
          cases hcs : c.store with
          | null => exact .inr rfl
          | ext e => exact absurd ⟨c, hc, hic, hcs⟩ (hw.inv.ext k e)
          | heap e => exact .inl fun he => hne (hw.inv.sole h k e ⟨a, ha, hia, he.symm⟩ ⟨c, hc, hic, hcs⟩)
        rcases hd with hd | hd
        · simp only [World.load]
          congr 1
          cases hcs : c.store <;> cases has : a.store <;> simp_all [World.block, World.setBlock, upd]
        · simp [World.load, hd, World.block]
    · cases hs

/-- Non-vacuity of C72 and of the partial C68-C70. -/
example : ∃ w, (World.start fun _ => []).run (0 : Nat) [.ofList 0 [1, 2], .createFilled 1 2 7, .set 0 1 5, .swap 0 1] = .ok w ∧
    w.Shows 0 [7, 7] ∧ w.Shows 1 [1, 5] := by
  refine ⟨_, rfl, ⟨rfl, fun i hi => ?_⟩, ⟨rfl, fun i hi => ?_⟩⟩ <;>
    (obtain rfl | rfl : i = 0 ∨ i = 1 := by simp at hi; omega) <;> rfl

/-! ## C27 -/

theorem ArrIter.forward_loop (slots : List α) (hn : slots.length < sizeMod) (k : Nat) (hk : k ≤ slots.length) :
    ArrIter.loop ArrIter.next ⟨slots, slots.length⟩ ⟨slots, slots.length - k⟩ (k + 1) = .ok (slots.drop (slots.length - k)) := by
  induction k with
  | zero => simp [ArrIter.loop, ArrIter.differs]
  | succ k ih =>
    have h1 : slots.length - (k + 1) < slots.length := by omega
    have h2 : (ArrIter.next ⟨slots, slots.length - (k + 1)⟩ : ArrIter α) = ⟨slots, slots.length - k⟩ := by
      simp only [ArrIter.next, uadd_eq, ArrIter.mk.injEq, true_and]
      rw [Nat.mod_eq_of_lt (by omega)]; omega
    rw [ArrIter.loop]
    have h3 : (ArrIter.differs ⟨slots, slots.length - (k + 1)⟩ ⟨slots, slots.length⟩) = true := by
      simp [ArrIter.differs]; omega
    rw [if_pos h3, h2, ih (by omega)]
    simp only [ArrIter.deref, rd, List.getElem?_eq_getElem h1, res_bind_ok, res_pure]
    rw [List.drop_eq_getElem_cons h1]
    congr 3; omega

theorem ArrIter.reverse_loop (slots : List α) (hn : slots.length < sizeMod) (k : Nat) (hk : k ≤ slots.length) :
    ArrIter.loop ArrIter.rnext ⟨slots, usub 0 1⟩ ⟨slots, usub k 1⟩ (k + 1) = .ok (slots.take k).reverse := by
  induction k with
  | zero => simp [ArrIter.loop, ArrIter.differs]
  | succ k ih =>
    have h1 : usub (k + 1) 1 = k := by simp [usub]
    have h2 : usub 0 1 = sizeMod - 1 := by simp [usub]
    rw [ArrIter.loop, h1]
    have h3 : (ArrIter.differs (⟨slots, k⟩ : ArrIter α) ⟨slots, usub 0 1⟩) = true := by
      simp [ArrIter.differs, h2]; omega
    rw [if_pos h3]
    have h4 : (ArrIter.rnext ⟨slots, k⟩ : ArrIter α) = ⟨slots, usub k 1⟩ := rfl
    rw [h4, ih (by omega)]
    simp only [ArrIter.deref, rd, List.getElem?_eq_getElem (show k < slots.length by omega), res_bind_ok, res_pure]
    rw [List.take_succ_eq_append_getElem (show k < slots.length by omega), List.reverse_append]; rfl

/-- C27 (partial), non-const: reverse iteration visits the elements in reverse order, for every size including 0
(where both ends are the largest index), and forward iteration (const or not) visits them in order.
Missing: reverse iteration of a const array (`C27_const_reverse_counterexample`). -/
theorem C27_reverse_iteration_partial (slots : List α) (hn : slots.length < sizeMod) :
    ArrIter.reverse slots (slots.length + 1) = .ok slots.reverse ∧
    ArrIter.forward slots (slots.length + 1) = .ok slots := by
  constructor
  · have := ArrIter.reverse_loop slots hn slots.length (Nat.le_refl _)
    simpa [ArrIter.reverse] using this
  · have := ArrIter.forward_loop slots hn slots.length (Nat.le_refl _)
    simpa [ArrIter.forward] using this

/-- C27 is false for const arrays: `rbegin() == rend()` whatever the size, so nothing is ever visited. -/
theorem C27_const_reverse_counterexample (slots : List α) (fuel : Nat) :
    ArrIter.reverseConst slots (fuel + 1) = .ok [] := by
  simp [ArrIter.reverseConst, ArrIter.loop, ArrIter.differs]

/-- Non-vacuity. -/
example : ArrIter.reverse [1, 2, 3] 4 = .ok [3, 2, 1] := by
  simpa using (C27_reverse_iteration_partial [1, 2, 3] (by have := sizeMod_ge; simp only [List.length]; omega)).1

/-! ## C71 -/

/-- C71 (partial). The prefix operators move by one position, and the postfix ones leave the iterator where the prefix
ones do.  Missing: the value of the postfix expression (`C71_postfix_counterexample`). -/
theorem C71_increment_partial (it : ArrIter α) (h : it.index + 1 < sizeMod) :
    it.next.index = it.index + 1 ∧ it.next.prev = it ∧ (0 < it.index → it.prev.next = it) ∧
    it.postNext.2 = it.next ∧ it.postPrev.2 = it.prev := by
  have h1 : uadd it.index 1 = it.index + 1 := by rw [uadd_eq, Nat.mod_eq_of_lt h]
  refine ⟨h1, ?_, fun h0 => ?_, rfl, rfl⟩
  · have : usub (it.index + 1) 1 = it.index := by simp [usub]
    simp only [ArrIter.next, ArrIter.prev, h1, this]
  · have h2 : usub it.index 1 = it.index - 1 := by unfold usub; rw [if_pos (by omega)]
    have h3 : uadd (it.index - 1) 1 = it.index := by rw [uadd_eq, Nat.mod_eq_of_lt (by omega)]; omega
    simp only [ArrIter.next, ArrIter.prev, h2, h3]

/-- C71 is false: `*it++` reads the element after the current one, whatever the iterator; at the last element
it reads past the end. -/
theorem C71_postfix_counterexample (pre : List α) (x y : α) (post : List α) (hlen : pre.length + 1 < sizeMod) :
    (ArrIter.mk (pre ++ x :: y :: post) pre.length).deref = .ok x ∧
    (ArrIter.mk (pre ++ x :: y :: post) pre.length).postNext.1.deref = .ok y ∧
    (ArrIter.mk (pre ++ [x]) pre.length).postNext.1.deref = .error .ub := by
  have h1 : uadd pre.length 1 = pre.length + 1 := by rw [uadd_eq, Nat.mod_eq_of_lt hlen]
  refine ⟨by simp [ArrIter.deref, rd], ?_, ?_⟩
  · simp only [ArrIter.postNext, ArrIter.next, ArrIter.deref, h1, rd]
    rw [List.getElem?_append_right (by omega)]; simp
  · simp only [ArrIter.postNext, ArrIter.next, ArrIter.deref, h1, rd]
    rw [List.getElem?_eq_none (by simp)]

/-- C71 (partial), for reverse iterators: the prefix operators move by one position in the other direction, down to the position before the first element, and the postfix ones leave
the iterator where the prefix ones do. Missing: the value of the postfix expression (`C71_reverse_counterexample`). -/
theorem C71_reverse_partial (it : ArrIter α) (h : it.index + 1 < sizeMod) :
    (0 < it.index → it.rnext.index = it.index - 1) ∧ (it.index = 0 → it.rnext.index = sizeMod - 1) ∧ it.rnext.rprev = it ∧ it.rprev.rnext = it ∧
    it.rpostNext.2 = it.rnext ∧ it.rpostPrev.2 = it.rprev := by
  have hs := sizeMod_ge
  have h1 : uadd it.index 1 = it.index + 1 := by rw [uadd_eq, Nat.mod_eq_of_lt h]
  refine ⟨fun h0 => ?_, fun h0 => ?_, ?_, ?_, rfl, rfl⟩
  · simp only [ArrIter.rnext, usub]; rw [if_pos (by omega)]
  · simp only [ArrIter.rnext, usub, h0]; rw [if_neg (by omega)]; omega
  · by_cases h0 : 0 < it.index
    · have h2 : usub it.index 1 = it.index - 1 := by unfold usub; rw [if_pos (by omega)]
      have h3 : uadd (it.index - 1) 1 = it.index := by rw [uadd_eq, Nat.mod_eq_of_lt (by omega)]; omega
      simp only [ArrIter.rnext, ArrIter.rprev, h2, h3]
    · have h2 : usub it.index 1 = sizeMod - 1 := by unfold usub; rw [if_neg (by omega)]; omega
      have h3 : uadd (sizeMod - 1) 1 = it.index := by
        rw [uadd_eq, show sizeMod - 1 + 1 = sizeMod by omega, Nat.mod_self]; omega
      simp only [ArrIter.rnext, ArrIter.rprev, h2, h3]
  · have : usub (it.index + 1) 1 = it.index := by simp [usub]
    simp only [ArrIter.rnext, ArrIter.rprev, h1, this]

/-- C71 is false of reverse iterators too: `*it++` reads the element before the current one; at the first element it reads before the beginning. -/
theorem C71_reverse_counterexample (pre : List α) (x y : α) (post : List α) (hlen : pre.length + post.length + 2 < sizeMod) :
    (ArrIter.mk (pre ++ x :: y :: post) (pre.length + 1)).deref = .ok y ∧
    (ArrIter.mk (pre ++ x :: y :: post) (pre.length + 1)).rpostNext.1.deref = .ok x ∧
    (ArrIter.mk (x :: post) 0).rpostNext.1.deref = .error .ub := by
  have h1 : usub (pre.length + 1) 1 = pre.length := by simp [usub]
  have h2 : usub 0 1 = sizeMod - 1 := by unfold usub; rw [if_neg (by omega)]; omega
  refine ⟨?_, ?_, ?_⟩
  · simp only [ArrIter.deref, rd]
    rw [List.getElem?_append_right (by omega)]; simp
  · simp [ArrIter.rpostNext, ArrIter.rnext, ArrIter.deref, h1, rd]
  · simp only [ArrIter.rpostNext, ArrIter.rnext, ArrIter.deref, h2, rd]
    rw [List.getElem?_eq_none (by simp only [List.length_cons]; omega)]

end Spine
