import Verif.Model.Meta
import Verif.Core.Bind
import Mathlib.Data.List.Basic
/-!
# C63: compile-time helpers
-/

namespace Spine

open Meta

theorem elements_prefix {a : List Char} {n : Nat} (h : n ≤ a.length) : elements a n = .ok (a.take n) := by
  unfold elements
  induction n with
  | zero => rfl
  | succ n ih =>
    rw [List.range_succ, List.mapM_append, ih (by omega)]
    have e : rd a n = .ok (a[n]'(by omega)) := by rw [rd, List.getElem?_eq_getElem (show n < a.length by omega)]
    have e2 : ([n].mapM fun k => rd a k) = Except.ok [a[n]'(by omega)] := by
      rw [List.mapM_cons, e]
      rfl
    rw [e2, res_bind_ok, res_bind_ok, List.take_succ_eq_append_getElem (show n < a.length by omega)]
    rfl

/-- What two arrays give: all characters but the last of each, and a NUL. -/
theorem concat2_eq (a b : List Char) : concat2 a b = .ok (some (a.dropLast ++ b.dropLast ++ ['\x00'])) := by
  have sz : ∀ l : List Char, stringSize [l.length] = l.length - 1 := by intro l; simp [stringSize]; intro h; simp [h]
  have sz2 : stringSize [a.length, b.length] = (a.length - 1) + (b.length - 1) := by
    simp only [stringSize]
    split <;> split <;> omega
  rw [concat2, sz, sz, elements_prefix (by omega), elements_prefix (by omega), sz2, List.dropLast_eq_take, List.dropLast_eq_take]
  rw [res_bind_ok, res_bind_ok, aggregate, if_pos (by simp; omega)]
  have : (a.length - 1) + (b.length - 1) + 1 - (a.take (a.length - 1) ++ b.take (b.length - 1) ++ ['\x00']).length = 0 := by simp; omega
  rw [this]
  simp

theorem stringSize_eq (ls : List Nat) : stringSize ls = (ls.map (· - 1)).sum := by
  induction ls with
  | nil => rfl
  | cons a ls ih => rw [stringSize, ih, List.map_cons, List.sum_cons]; split <;> omega

theorem concat_eq : ∀ as : List (List Char), concat as = .ok (some ((as.map List.dropLast).flatten ++ ['\x00']))
  | [] => by rw [concat, concat2_eq]; rfl
  | [a] => by rw [concat, concat2_eq]; simp
  | [a, b] => by rw [concat, concat2_eq]; simp
  | a :: b :: c :: rest => by
    rw [concat, concat_eq (b :: c :: rest), res_bind_ok]
    simp only
    rw [concat2_eq, res_bind_ok]
    simp only
    rw [if_pos]
    · simp
    · rw [stringSize_eq, List.dropLast_concat]
      simp [List.length_flatten, Function.comp_def]
      omega

/-- C63: concatenating any number of literals compiles, reads nothing outside of them, and gives their characters in order and one NUL. The array has
exactly that length. -/
theorem C63_concat_partial (texts : List (List Char)) : concat (texts.map fun t => t ++ ['\x00']) = .ok (some (texts.flatten ++ ['\x00'])) := by
  rw [concat_eq]
  simp [Function.comp_def]

example : concat ["ab\x00".toList, "\x00".toList, "c\x00".toList] = .ok (some "abc\x00".toList) := by decide +kernel

/-- C63 is false for arrays that do not end with a NUL, such as a `std::array<char, 3>` filled with characters: the last character of each is lost. -/
theorem C63_array_counterexample (t : List Char) (c : Char) (rest : List (List Char)) :
    concat ((t ++ [c]) :: rest.map fun t => t ++ ['\x00']) = .ok (some (t ++ rest.flatten ++ ['\x00'])) := by
  rw [concat_eq]
  simp [Function.comp_def]

variable {Ty : Type} [DecidableEq Ty]

theorem contains_iff {l : List Ty} {t : Ty} : Meta.contains l t = true ↔ t ∈ l := by
  induction l with
  | nil => simp [Meta.contains]
  | cons a l ih =>
    rw [Meta.contains]
    split
    · next h => simp [h]
    · next h => rw [ih, List.mem_cons]; constructor
                · exact .inr
                · rintro (rfl | h')
                  · exact absurd rfl h
                  · exact h'

/-- C63: `Unique` has the same members, each once, in the order of their last occurrences. -/
theorem C63_unique (l : List Ty) : (∀ t, t ∈ unique l ↔ t ∈ l) ∧ (unique l).Nodup ∧ (unique l).Sublist l := by
  induction l with
  | nil => simp [unique]
  | cons a l ih =>
    obtain ⟨h1, h2, h3⟩ := ih
    rw [unique]
    split
    · next h =>
      rw [contains_iff, h1] at h
      refine ⟨fun t => ?_, h2, h3.cons a⟩
      rw [h1, List.mem_cons]
      constructor
      · exact .inr
      · rintro (rfl | h')
        · exact h
        · exact h'
    · next h =>
      rw [contains_iff] at h
      exact ⟨fun t => by rw [List.mem_cons, List.mem_cons, h1], List.nodup_cons.mpr ⟨h, h2⟩, h3.cons_cons a⟩

/-- C63: a list without duplicates stays as it is. -/
theorem C63_unique_id {l : List Ty} (h : l.Nodup) : unique l = l := by
  induction l with
  | nil => rfl
  | cons a l ih =>
    have := List.nodup_cons.mp h
    rw [unique, ih this.2, if_neg (by rw [contains_iff]; exact this.1)]

example : unique [1, 2, 1, 3, 2] = [1, 3, 2] := by decide

end Spine
