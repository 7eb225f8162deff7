import Verif.Model.Filter
import Verif.Core.Bind
import Mathlib.Tactic.Linarith
import Mathlib.Tactic.NormNum
/-!
# C207: an average never loses count
-/

namespace Spine

open F32 Fl

namespace Ewma

/-- Specification: the count after `m` samples. -/
def counted (m : Nat) : Fl := .num false ((min m (2 ^ 24) : Nat) : Rat)

theorem ofRat_count {n : Nat} (h : n ≤ 2 ^ 24) : Fl.ofRat (n : Rat) = .num false (n : Rat) := by
  have e : rnd (n : Rat) = n := by
    have := rnd_int (n := (n : Int)) (by rw [abs_of_nonneg (by omega)]; exact_mod_cast h)
    exact_mod_cast this
  have hp : (n : Rat) < pow2 128 := by
    have h1 : (n : Rat) ≤ 2 ^ 24 := by exact_mod_cast h
    have h2 : (2 ^ 24 : Rat) < pow2 128 := by decide +kernel
    linarith
  have h0 : (0 : Rat) ≤ n := Nat.cast_nonneg n
  unfold Fl.ofRat Fl.round
  rw [abs_of_nonneg h0, e, if_pos hp, decide_eq_false (not_lt.mpr h0)]

theorem counted_succ (m : Nat) : Fl.add (counted m) (Fl.ofRat 1) = counted (m + 1) := by
  have one : Fl.ofRat 1 = .num false 1 := by decide +kernel
  rw [one]
  by_cases h : m < 2 ^ 24
  · have e1 : counted m = .num false (m : Rat) := by unfold counted; rw [Nat.min_eq_left (by omega)]
    have e2 : counted (m + 1) = .num false ((m + 1 : Nat) : Rat) := by unfold counted; rw [Nat.min_eq_left (by omega)]
    have hv : (Fl.num false (m : Rat)).val + (Fl.num false 1).val = ((m + 1 : Nat) : Rat) := by simp [Fl.val]
    have hz : ((m + 1 : Nat) : Rat) ≠ 0 := by exact_mod_cast Nat.succ_ne_zero m
    rw [e1, e2]
    simp only [Fl.add, hv]
    rw [if_neg hz, ofRat_count (by omega)]
  · have e1 : counted m = .num false (16777216 : Rat) := by unfold counted; rw [Nat.min_eq_right (by omega)]; norm_num
    have e2 : counted (m + 1) = .num false (16777216 : Rat) := by unfold counted; rw [Nat.min_eq_right (by omega)]; norm_num
    rw [e1, e2]
    decide +kernel

theorem counted_zero (m : Nat) : feq (counted m) (fzero : Fl) = decide (m = 0) := by
  have z : (fzero : Fl) = .num false 0 := by decide +kernel
  rw [z]
  unfold feq counted
  show (decide ((Fl.num false ((min m (2 ^ 24) : Nat) : Rat)).val ≤ (Fl.num false 0).val) && decide ((Fl.num false 0).val ≤ (Fl.num false ((min m (2 ^ 24) : Nat) : Rat)).val)) = decide (m = 0)
  have h1 : (Fl.num false 0).val = 0 := by simp [Fl.val]
  have h2 : (Fl.num false ((min m (2 ^ 24) : Nat) : Rat)).val = ((min m (2 ^ 24) : Nat) : Rat) := by simp [Fl.val]
  rw [h1, h2]
  rcases Nat.eq_zero_or_pos m with rfl | hm
  · simp
  · have hp : (0 : Rat) < ((min m (2 ^ 24) : Nat) : Rat) := by exact_mod_cast (by omega : 0 < min m (2 ^ 24))
    simp [not_le.mpr hp, (Nat.pos_iff_ne_zero.mp hm)]

theorem sample_count (k : Fl) {s : Ewma Fl} {m : Nat} (h : s.n = counted m) (x : Fl) : (s.sample k x).n = counted (m + 1) := by
  unfold Ewma.sample
  have : (Arith.add s.n (Arith.ofRat 1) : Fl) = counted (m + 1) := by rw [h]; exact counted_succ m
  simp only [this]
  split <;> rfl

/-- **C207.** With floats the count of samples is exact up to `2 ^ 24` and stays there: it neither overflows nor returns to zero, however many samples come. -/
theorem C207_count (k : Fl) (xs : List Fl) : ∀ {s : Ewma Fl} {m : Nat}, s.n = counted m → (s.samples k xs).n = counted (m + xs.length) := by
  induction xs with
  | nil => intro s m h; exact h
  | cons x xs ih =>
    intro s m h
    have := ih (sample_count k h x)
    rw [show m + (x :: xs).length = m + 1 + xs.length by simp; omega]
    exact this

/-- **C207.** From a new filter, or from a reset. -/
theorem C207_from_start (k : Fl) (xs : List Fl) (s : Ewma Fl) (v : Fl) :
    ((create : Ewma Fl).samples k xs).n = counted xs.length ∧ ((s.reset v).samples k xs).n = counted xs.length := by
  have z : (fzero : Fl) = counted 0 := by unfold counted; decide +kernel
  constructor
  · have := C207_count k xs (s := create) (m := 0) z
    rwa [Nat.zero_add] at this
  · have := C207_count k xs (s := s.reset v) (m := 0) z
    rwa [Nat.zero_add] at this

/-- **C207.** So a sample, the `m + 1`-st one, is never taken for the first one again, and it moves the value by its distance divided by `m + 1`, by the frame length or by `2 ^ 24`, whichever
is least. -/
theorem C207_weight {k : Fl} {s : Ewma Fl} {m : Nat} (h : s.n = counted m) (hm : 0 < m) (x : Fl) :
    (s.sample k x).value = Fl.add s.value (Fl.div (Fl.sub x s.value) (if Fl.lt k (counted (m + 1)) then k else counted (m + 1))) := by
  unfold Ewma.sample
  have e : (Arith.add s.n (Arith.ofRat 1) : Fl) = counted (m + 1) := by rw [h]; exact counted_succ m
  have f : feq s.n (fzero : Fl) = false := by rw [h, counted_zero]; simp; omega
  simp only [e, f]
  rfl

theorem counted_val (m : Nat) : (counted m).val = ((min m (2 ^ 24) : Nat) : Rat) := by simp [counted, Fl.val]

/-- **C207.** Frames of at least `2 ^ 24` samples are all the same: the frame of a float average cannot be longer. -/
theorem C207_longest {k k' : Fl} (hk : Fl.lt k (.num false (2 ^ 24)) = false) (hk' : Fl.lt k' (.num false (2 ^ 24)) = false) (xs : List Fl) : ∀ {s : Ewma Fl} {m : Nat}, s.n = counted m →
    s.samples k xs = s.samples k' xs := by
  have big : ∀ {k : Fl}, Fl.lt k (.num false (2 ^ 24)) = false → ∀ m, Fl.lt k (counted m) = false := by
    intro k hk m
    have hle : ((min m (2 ^ 24) : Nat) : Rat) ≤ 2 ^ 24 := by exact_mod_cast Nat.min_le_right m (2 ^ 24)
    unfold counted
    cases k with
    | nan => rfl
    | inf s => exact hk
    | num s q =>
      simp only [Fl.lt, decide_eq_false_iff_not, not_lt] at hk ⊢
      have h1 : (Fl.num false (2 ^ 24)).val = 2 ^ 24 := by simp [Fl.val]
      have h2 : (Fl.num false ((min m (2 ^ 24) : Nat) : Rat)).val = ((min m (2 ^ 24) : Nat) : Rat) := by simp [Fl.val]
      rw [h1] at hk
      rw [h2]
      linarith
  induction xs with
  | nil => intro s m _; rfl
  | cons x xs ih =>
    intro s m h
    have e : s.sample k x = s.sample k' x := by
      have n1 := sample_count k h x
      have n2 := sample_count k' h x
      rcases Nat.eq_zero_or_pos m with rfl | hm
      · have f : feq s.n (fzero : Fl) = true := by rw [h, counted_zero]; rfl
        unfold Ewma.sample
        simp only [f, if_true]
      · have v1 := C207_weight (k := k) h hm x
        have v2 := C207_weight (k := k') h hm x
        rw [big hk] at v1
        rw [big hk'] at v2
        have : (s.sample k x).value = (s.sample k' x).value := v1.trans v2.symm
        cases h1 : s.sample k x
        cases h2 : s.sample k' x
        rw [h1, h2] at this
        rw [h1] at n1
        rw [h2] at n2
        simp only at this n1 n2
        rw [this, n1, n2]
    show (s.sample k x).samples k xs = (s.sample k' x).samples k' xs
    rw [← e]
    exact ih (sample_count k h x)

/-! ## Concrete cases -/

/-- The count at its end; the next sample still moves the value. -/
example : (sample (Fl.ofRat 100) ⟨counted (2 ^ 40), Fl.ofRat 1⟩ (Fl.ofRat 2)).n = .num false 16777216 ∧
    (sample (Fl.ofRat 100) ⟨counted (2 ^ 40), Fl.ofRat 1⟩ (Fl.ofRat 201)).value = .num false 3 := by constructor <;> decide +kernel

example : Fl.lt (Fl.ofRat 100000000) (.num false (2 ^ 24)) = false ∧ Fl.lt (.inf false) (.num false (2 ^ 24)) = false := by constructor <;> decide +kernel

/-- A frame of 10^8 samples after 2^40 samples: a sample has a weight of 2^-24, not 10^-8. -/
example : (sample (Fl.ofRat 100000000) ⟨counted (2 ^ 40), fzero⟩ (Fl.ofRat (2 ^ 24))).value = .num false 1 := by decide +kernel

end Ewma

end Spine
