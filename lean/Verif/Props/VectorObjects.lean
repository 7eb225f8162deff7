import Verif.Model.VectorObjects
import Verif.Props.Array
/-!
# Properties C118, C119: vectors as objects
-/

namespace Spine

open World

variable {α : Type}

/-- A caller who looks at the vector `h`, in any build, sees `xs`. -/
def Vecs.Shows (v : Vecs α) (h : Nat) (xs : List α) : Prop :=
  v.size h = .ok xs.length ∧ ∀ (b : Build) i (hi : i < xs.length), v.get b h i = .ok xs[i]

theorem Vecs.shows_window {v : Vecs α} {w : World α} {h head : Nat} {xs ys : List α} (hw : w.Shows h ys) (hx : xs <+: ys.drop head)
    (hh : head ≤ ys.length) : (v.window w h head (head + xs.length)).Shows h xs := by
  obtain ⟨h1, h2⟩ := hw
  cases ho : w.obj h with
  | error e => simp [World.size, ho] at h1
  | ok a =>
    have hlen := hx.length_le
    simp at hlen
    refine ⟨?_, fun b i hi => ?_⟩
    · simp [Vecs.size, Vecs.window, ho, usub, sizeMod]
    · have hi' : head + i < ys.length := by omega
      have hg := h2 (head + i) hi'
      simp only [World.get, ho, res_bind_ok] at hg
      have hasrt : decide (head + i < head + xs.length) = true := by simpa using hi
      simp only [Vecs.get, Vecs.window, ho, res_bind_ok, upd_same, hasrt, spnAssert_true, hg]
      congr 1
      obtain ⟨t, ht⟩ := hx
      have : ys[head + i] = (ys.drop head)[i]'(by simp; omega) := by simp
      rw [this]
      simp [← ht, List.getElem_append_left hi]

/-! ## C118 -/

/-- **C118.** Constructing a vector from a list, and assigning a list to any vector in any program that swaps storage only among owners or among views, give a vector that
shows the list. -/
theorem C118_list {zero : α} {v : Vecs α} (hv : World.Reachable zero v.arrs) (h : Nat) (xs : List α) :
    (∃ v', v.ofList zero h xs = .ok v' ∧ v'.Shows h xs) ∧ (v.arrs.objs h ≠ none → ∃ v', v.listAssign zero h xs = .ok v' ∧ v'.Shows h xs) := by
  refine ⟨?_, fun hh => ?_⟩
  · obtain ⟨w, h1, h2⟩ := (C72_construct zero v.arrs h).2.2.1 xs
    refine ⟨v.window w h 0 xs.length, by simp [Vecs.ofList, h1], ?_⟩
    have := Vecs.shows_window (v := v) (head := 0) (xs := xs) h2 (by simp) (by simp)
    rwa [Nat.zero_add] at this
  · obtain ⟨w, h1, h2⟩ := C72_list_assign hv hh xs
    refine ⟨v.window w h 0 xs.length, by simp [Vecs.listAssign, h1], ?_⟩
    have := Vecs.shows_window (v := v) (head := 0) (xs := xs) h2 (by simp) (by simp)
    rwa [Nat.zero_add] at this

/-- A vector of three elements becomes one of two. -/
example : ∃ v v' : Vecs Nat, (Vecs.start fun _ => []).ofList 0 7 [1, 2, 3] = .ok v ∧ v.listAssign 0 7 [8, 9] = .ok v' ∧ v'.Shows 7 [8, 9] ∧ World.Reachable 0 v.arrs := by
  refine ⟨_, _, rfl, rfl, ⟨rfl, ?_⟩, ?_⟩
  · intro b i hi
    match i, hi with
    | 0, _ => cases b <;> rfl
    | 1, _ => cases b <;> rfl
  · exact .step (op := .ofList 7 [1, 2, 3]) (.start fun _ => []) (by simp [World.Legal, World.start]) (by simp [World.Matched]) rfl

/-! ## C119 -/

/-- **C119**, the part that is true: a copy or a moved vector, made by a constructor or an assignment, shows what the original showed. Missing: independence of copies,
emptiness of what was moved from, swaps, see below. -/
theorem C119_copy_partial {v : Vecs α} {h o : Nat} (hne : h ≠ o) {xs : List α} (hx : v.Shows o xs) :
    (∃ v', v.copy h o = .ok v' ∧ v'.Shows h xs ∧ v'.Shows o xs) ∧ (∃ v', v.move h o = .ok v' ∧ v'.Shows h xs) ∧
    (v.arrs.objs h ≠ none → (∃ v', v.copyAssign h o = .ok v' ∧ v'.Shows h xs ∧ v'.Shows o xs) ∧ ∃ v', v.moveAssign h o = .ok v' ∧ v'.Shows h xs) := by
  obtain ⟨h1, h2⟩ := hx
  cases ho : v.arrs.obj o with
  | error e => simp [Vecs.size, ho] at h1
  | ok a =>
    have key (w : World α) (a' : Arr) (k : Nat) (hw : w.obj k = .ok a') (hs : a'.store = a.store) (hp : ∀ p i, w.load p i = v.arrs.load p i)
        (hd tl : Nat → Nat) (hhd : hd k = v.head o) (htl : tl k = v.tail o) : (⟨w, hd, tl⟩ : Vecs α).Shows k xs := by
      refine ⟨?_, fun b i hi => ?_⟩
      · have := h1
        simp only [Vecs.size, ho, res_bind_ok] at this
        simp only [Vecs.size, hw, res_bind_ok, hhd, htl]
        exact this
      · have := h2 b i hi
        simp only [Vecs.get, ho, res_bind_ok] at this
        simp only [Vecs.get, hw, res_bind_ok, hhd, htl, hs, hp]
        exact this
    have hput (w : World α) (k : Nat) (c : Arr) : ∀ p i, (w.put k c).load p i = w.load p i := fun p i => by cases p <;> rfl
    have hno : o ≠ h := fun e => hne e.symm
    have hobj := obj_ok.mp ho
    refine ⟨⟨_, by simp only [Vecs.copy, World.copy, ho, res_bind_ok, res_pure]; rfl, ?_, ?_⟩,
      ⟨_, by simp only [Vecs.move, World.move, ho, res_bind_ok, res_pure]; rfl, ?_⟩, fun hh => ?_⟩
    · exact key _ ⟨a.store, a.maxSize, false⟩ h (by simp [World.obj, World.put]) rfl (hput _ _ _) _ _ (by simp) (by simp)
    · exact key _ a o (by rw [obj_ok]; simp [World.put, upd_ne _ _ hno, hobj]) rfl (hput _ _ _) _ _ (by simp [upd_ne _ _ hno]) (by simp [upd_ne _ _ hno])
    · exact key _ ⟨a.store, a.maxSize, a.internal⟩ h (by rw [obj_ok]; simp [World.put, upd_ne _ _ hne]) rfl
        (fun p i => by rw [hput, hput]) _ _ (by simp) (by simp)
    · obtain ⟨a', ha'⟩ := Option.ne_none_iff_exists'.mp hh
      refine ⟨⟨_, by simp only [Vecs.copyAssign, World.copyAssign, obj_ok.mpr ha', ho, res_bind_ok, res_pure, if_neg hne]; rfl, ?_, ?_⟩,
        ⟨_, by simp only [Vecs.moveAssign, World.moveAssign, obj_ok.mpr ha', ho, res_bind_ok, res_pure, if_neg hne]; rfl, ?_⟩⟩
      · exact key _ ⟨a.store, a.maxSize, false⟩ h (by simp [World.obj, World.put]) rfl (hput _ _ _) _ _ (by simp) (by simp)
      · exact key _ a o (by rw [obj_ok]; simp [World.put, upd_ne _ _ hno, hobj]) rfl (hput _ _ _) _ _ (by simp [upd_ne _ _ hno]) (by simp [upd_ne _ _ hno])
      · exact key _ ⟨a.store, a.maxSize, a.internal⟩ h (by rw [obj_ok]; simp [World.put, upd_ne _ _ hne]) rfl
          (fun p i => by rw [hput, hput]) _ _ (by simp) (by simp)

/-- **C119** is false for copies: writing to the original changes the copy. -/
theorem C119_alias_counterexample (b : Build) : ((Vecs.start fun _ => []).ofList 0 0 [1, 2] >>= fun v => v.copy 1 0 >>= fun v => v.set b 0 0 9 >>= fun v => v.get b 1 0) =
    .ok (9 : Nat) := by cases b <;> rfl

/-- **C119** is false for what was moved from: it still has its old size, and reading it dereferences a null pointer. -/
theorem C119_moved_from_counterexample (b : Build) : ∃ v : Vecs Nat, ((Vecs.start fun _ => []).ofList 0 0 [1, 2] >>= fun v => v.move 1 0) = .ok v ∧ v.size 0 = .ok 2 ∧
    v.get b 0 0 = .error .ub := ⟨_, rfl, rfl, by cases b <;> rfl⟩

/-- **C119** is false for swaps, even if the vectors have the same capacity: the sizes stay behind. Here vectors of capacity 2 that show `[1, 2]` and nothing. -/
theorem C119_swap_counterexample (b : Build) : ∃ v : Vecs Nat, (((Vecs.start fun _ => []).create 0 0 2).ofList 0 1 [1, 2] >>= fun v => v.swap 0 1) = .ok v ∧
    v.size 0 = .ok 0 ∧ v.size 1 = .ok 2 ∧ v.get b 1 0 = .ok 0 := ⟨_, rfl, rfl, rfl, by cases b <;> rfl⟩

end Spine
