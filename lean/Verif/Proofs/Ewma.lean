import Verif.Model.Filter
import Mathlib.Tactic.Linarith
import Mathlib.Tactic.FieldSimp
import Mathlib.Tactic.Positivity
import Mathlib.Tactic.NormNum
/-!
# EWMA in single precision
-/

namespace Spine
open F32

/-- Half of the largest finite float. -/
def halfMax : Rat := (2 ^ 24 - 1) * pow2 103

theorem exists_least {α : Type} (f : α → Rat) (xs : List α) (h : xs ≠ []) : ∃ a ∈ xs, ∀ x ∈ xs, f a ≤ f x := by
  induction xs with
  | nil => exact absurd rfl h
  | cons y xs ih =>
    by_cases h0 : xs = []
    · subst h0; exact ⟨y, by simp, by simp⟩
    · obtain ⟨a, ha, h1⟩ := ih h0
      rcases le_total (f a) (f y) with hc | hc
      · refine ⟨a, List.mem_cons_of_mem _ ha, fun x hx => ?_⟩
        rcases List.mem_cons.mp hx with rfl | hx
        · exact hc
        · exact h1 x hx
      · refine ⟨y, List.mem_cons_self, fun x hx => ?_⟩
        rcases List.mem_cons.mp hx with rfl | hx
        · exact le_refl _
        · exact hc.trans (h1 x hx)

namespace F32

/-- Floats are multiples of the smallest subnormal. -/
theorem grid_of_rnd {x : Rat} (h : rnd x = x) : ∃ m : Int, x = m * pow2 (-149) := by
  obtain ⟨m, e, -, he, hq⟩ := rnd_form x
  rw [h] at hq
  obtain ⟨k, hk⟩ := Int.eq_ofNat_of_zero_le (show 0 ≤ e + 149 by omega)
  refine ⟨m * 2 ^ k, ?_⟩
  have : e = (k : Int) + -149 := by omega
  rw [hq, this, pow2_add, pow2_nat]
  push_cast
  ring

theorem pow2_ratio (a : Int) (n : Nat) : pow2 (a + n) = 2 ^ n * pow2 a := by
  rw [pow2_add, pow2_nat]; push_cast; ring

/-- The move of an average towards the sample does not pass it. -/
theorem average_up {v s k : Rat} (hv : rnd v = v) (hs : rnd s = s) (hvs : v ≤ s) (hk : 1 + 1 / 2 ^ 23 ≤ k) :
    v ≤ rnd (v + rnd (rnd (s - v) / k)) ∧ rnd (v + rnd (rnd (s - v) / k)) ≤ s := by
  have hk0 : 0 < k := by linarith [show (0 : Rat) < 1 + 1 / 2 ^ 23 by norm_num]
  have hD : 0 ≤ s - v := by linarith
  have hd : 0 ≤ rnd (s - v) := rnd_nonneg hD
  have he : 0 ≤ rnd (rnd (s - v) / k) := rnd_nonneg (div_nonneg hd hk0.le)
  have key : rnd (rnd (s - v) / k) ≤ s - v := by
    rcases le_or_gt (s - v) (pow2 (-125)) with hsm | hbig
    · have hex : rnd (s - v) = s - v := by
        obtain ⟨a, ha⟩ := grid_of_rnd hs
        obtain ⟨b, hb⟩ := grid_of_rnd hv
        have e : s - v = ((a - b : Int) : Rat) * pow2 (-149) := by rw [ha, hb]; push_cast; ring
        have hp := pow2_pos (-149)
        rw [e]
        refine rnd_exact ?_ (le_refl _)
        have h1 : ((a - b : Int) : Rat) * pow2 (-149) ≤ 2 ^ 24 * pow2 (-149) := by
          rw [← e]; refine hsm.trans ?_
          rw [← pow2_ratio]; exact le_of_eq (by norm_num)
        have h2 : ((a - b : Int) : Rat) ≤ ((2 ^ 24 : Int) : Rat) := by push_cast at h1 ⊢; exact le_of_mul_le_mul_right h1 hp
        have h3 : (0 : Rat) ≤ ((a - b : Int) : Rat) := by
          rw [e] at hD
          exact nonneg_of_mul_nonneg_left hD hp
        have h2' : a - b ≤ 2 ^ 24 := by exact_mod_cast h2
        have h3' : 0 ≤ a - b := by exact_mod_cast h3
        rw [abs_of_nonneg h3']; exact h2'
      rw [hex]
      have : rnd ((s - v) / k) ≤ rnd (s - v) := rnd_mono (div_le_self hD (by linarith [show (0 : Rat) < 1 / 2 ^ 23 by norm_num]))
      rwa [hex] at this
    · have hd1 : pow2 (-125) ≤ rnd (s - v) := by
        have h1 := rnd_mono hbig.le
        have h2 : rnd (pow2 (-125)) = pow2 (-125) := by
          have := rnd_exact (m := 1) (e := -125) (by norm_num) (by norm_num)
          simpa using this
        rwa [h2] at h1
      have hp := pow2_pos (-126)
      have h125 : pow2 (-125) = 2 * pow2 (-126) := by rw [← pow2_succ]; rfl
      have hlt : rnd (rnd (s - v) / k) < rnd (s - v) := by
        rcases le_or_gt k 2 with hk2 | hk2
        · have hq : pow2 (-126) ≤ rnd (s - v) / k := by
            rw [le_div_iff₀ hk0]
            nlinarith
          have hq0 : 0 ≤ rnd (s - v) / k := hp.le.trans hq
          have h1 := rnd_err (q := rnd (s - v) / k) (by rwa [abs_of_nonneg hq0])
          rw [abs_of_nonneg hq0] at h1
          have h2 := (abs_le.mp h1).2
          have h3 : rnd (s - v) / k * (1 + 1 / 2 ^ 24) < rnd (s - v) := by
            rw [div_mul_eq_mul_div, div_lt_iff₀ hk0]
            have hdp : 0 < rnd (s - v) := by linarith
            apply mul_lt_mul_of_pos_left _ hdp
            refine lt_of_lt_of_le ?_ hk
            norm_num
          linarith
        · have h1 : rnd (rnd (s - v) / k) ≤ rnd (rnd (s - v) / 2) := rnd_mono (by
            apply div_le_div_of_nonneg_left hd (by norm_num) hk2.le)
          have hq0 : 0 ≤ rnd (s - v) / 2 := by linarith
          have h3 := rnd_err (q := rnd (s - v) / 2) (by rw [abs_of_nonneg hq0]; linarith)
          rw [abs_of_nonneg hq0] at h3
          have h2 := (abs_le.mp h3).2
          have hdp : 0 < rnd (s - v) := by linarith
          have : rnd (s - v) / 2 / 2 ^ 24 < rnd (s - v) / 2 := by
            apply div_lt_self (by linarith); norm_num
          linarith
      by_contra hc
      rw [not_le] at hc
      have := rnd_mono hc.le
      rw [rnd_rnd] at this
      linarith
  constructor
  · have := rnd_mono (show v ≤ v + rnd (rnd (s - v) / k) by linarith)
    rwa [hv] at this
  · have := rnd_mono (show v + rnd (rnd (s - v) / k) ≤ s by linarith)
    rwa [hs] at this

theorem average_between {v s k lo hi : Rat} (hv : rnd v = v) (hs : rnd s = s) (hk : 1 + 1 / 2 ^ 23 ≤ k) (h1 : lo ≤ v) (h2 : v ≤ hi) (h3 : lo ≤ s) (h4 : s ≤ hi) :
    lo ≤ rnd (v + rnd (rnd (s - v) / k)) ∧ rnd (v + rnd (rnd (s - v) / k)) ≤ hi := by
  rcases le_total v s with h | h
  · have := average_up hv hs h hk
    exact ⟨h1.trans this.1, this.2.trans h4⟩
  · have := average_up (v := -v) (s := -s) (k := k) (by rw [rnd_neg, hv]) (by rw [rnd_neg, hs]) (by linarith) hk
    have e : rnd (-v + rnd (rnd (-s - -v) / k)) = - rnd (v + rnd (rnd (s - v) / k)) := by
      rw [show -s - -v = -(s - v) by ring, rnd_neg, neg_div, rnd_neg, ← neg_add, rnd_neg]
    rw [e] at this
    exact ⟨by linarith [this.2], by linarith [this.1]⟩

/-- The smallest float above 1. -/
theorem above_one {k : Rat} (h : rnd k = k) (h1 : 1 < k) : 1 + 1 / 2 ^ 23 ≤ k := by
  by_contra hc
  rw [not_le] at hc
  have hk0 : 0 < k := by linarith
  have h2 : k < 2 := hc.trans (by norm_num)
  have sp := ilog2_spec hk0
  have hi : ilog2 k = 0 := by
    have a := lt_of_pow2_lt (a := ilog2 k) (b := 1) (by
      refine lt_of_le_of_lt sp.1 (h2.trans_eq ?_)
      rw [pow2_eq]; norm_num)
    have b := lt_of_pow2_lt (a := 0) (b := ilog2 k + 1) (by
      refine lt_of_le_of_lt (le_of_eq ?_) (h1.trans sp.2)
      rw [pow2_eq]; norm_num)
    omega
  have he : expo k = -23 := by unfold expo; rw [abs_of_pos hk0, hi]; decide
  rw [rnd, if_neg hk0.ne', he, grid] at h
  have hp : pow2 (-23) = 1 / 2 ^ 23 := by rw [pow2_eq]; norm_num
  rw [hp] at h
  generalize rne (k / (1 / 2 ^ 23)) = n at h
  have hn : 2 ^ 23 < n := by
    have : ((2 ^ 23 : Int) : Rat) < n := by push_cast; linarith
    exact_mod_cast this
  have hn' : ((2 ^ 23 + 1 : Int) : Rat) ≤ n := by exact_mod_cast hn
  push_cast at hn'
  linarith

end F32

namespace Ewma
open Fl

theorem halfMax_twice : rnd (2 * halfMax) = 2 * halfMax ∧ 2 * halfMax < pow2 128 := by
  have e : 2 * halfMax = ((2 ^ 24 - 1 : Int) : Rat) * pow2 104 := by
    rw [show (104 : Int) = 103 + 1 by norm_num, pow2_succ, halfMax]; push_cast; ring
  rw [e]
  refine ⟨rnd_exact (by norm_num) (by norm_num), ?_⟩
  have : pow2 128 = 2 ^ 24 * pow2 104 := by rw [show (128 : Int) = 104 + (24 : Nat) by norm_num, pow2_ratio]
  rw [this]
  exact mul_lt_mul_of_pos_right (by norm_num) (pow2_pos _)

/-- A sample that cannot make the difference to another one overflow. -/
def Tame (x : Fl) : Prop := x.fin = true ∧ x.Ok ∧ |x.val| ≤ halfMax

/-- A count of samples. -/
def Count (n : Fl) : Prop := n.fin = true ∧ n.Ok ∧ 1 ≤ n.val ∧ n.val ≤ 2 ^ 24

theorem ofRat_one : (Arith.ofRat 1 : Fl) = .num false 1 := by decide +kernel

theorem count_step {n : Fl} (h : Count n) : Count (Arith.add n (Arith.ofRat 1)) ∧ 2 ≤ (Arith.add n (Arith.ofRat 1)).val := by
  obtain ⟨h1, h2, h3, h4⟩ := h
  have hone : (Arith.ofRat 1 : Fl).fin = true ∧ (Arith.ofRat 1 : Fl).val = 1 := by rw [ofRat_one]; exact ⟨rfl, rfl⟩
  have a : 2 ≤ rnd (n.val + 1) := by
    have := rnd_mono (show (2 : Rat) ≤ n.val + 1 by linarith)
    rwa [show rnd 2 = 2 by decide +kernel] at this
  have b : rnd (n.val + 1) ≤ 2 ^ 24 := by
    have := rnd_mono (show n.val + 1 ≤ 2 ^ 24 + 1 by linarith)
    rwa [show rnd (2 ^ 24 + 1) = 2 ^ 24 by decide +kernel] at this
  have hlt : |rnd (n.val + (Arith.ofRat 1 : Fl).val)| < pow2 128 := by
    rw [hone.2, abs_of_nonneg (by linarith)]
    exact b.trans_lt (by decide +kernel)
  have e := add_val h1 hone.1 hlt
  rw [hone.2] at e
  change Count (Fl.add n _) ∧ 2 ≤ (Fl.add n _).val
  exact ⟨⟨e.1, add_ok _ _, by rw [e.2]; linarith, by rw [e.2]; exact b⟩, by rw [e.2]; exact a⟩

theorem divisor {n k : Fl} (hn : Count n) (h2 : 2 ≤ n.val) (hk : k.Ok) (hk1 : Fl.le k (Arith.ofRat 1) = false) :
    (fmin n k).fin = true ∧ (fmin n k).Ok ∧ 1 + 1 / 2 ^ 23 ≤ (fmin n k).val := by
  obtain ⟨a1, a2, a3, a4⟩ := hn
  unfold fmin
  split
  · next h =>
    have hf : k.fin = true := by
      rw [ofRat_one] at hk1
      cases k with
      | nan => exact absurd h (by simp [Arith.lt, Fl.lt])
      | inf s =>
        cases s
        · cases n <;> simp [Fl.fin, Arith.lt, Fl.lt] at h a1
        · simp [Fl.le] at hk1
      | num s m => rfl
    refine ⟨hf, hk, above_one hk.rnd_val ?_⟩
    rw [Bool.eq_false_iff, ne_eq, le_iff hf (by rw [ofRat_one]; rfl), ofRat_one] at hk1
    simpa [Fl.val] using hk1
  · exact ⟨a1, a2, by linarith [show (1 : Rat) + 1 / 2 ^ 23 ≤ 2 by norm_num]⟩

theorem value_step {v x k : Fl} {lo hi : Rat} (hv : Tame v) (hx : Tame x) (hk : k.fin = true) (hko : k.Ok) (hk1 : 1 + 1 / 2 ^ 23 ≤ k.val)
    (h1 : lo ≤ v.val) (h2 : v.val ≤ hi) (h3 : lo ≤ x.val) (h4 : x.val ≤ hi) :
    Tame (Arith.add v (Arith.div (Arith.sub x v) k)) ∧ lo ≤ (Arith.add v (Arith.div (Arith.sub x v) k)).val ∧
      (Arith.add v (Arith.div (Arith.sub x v) k)).val ≤ hi := by
  obtain ⟨v1, v2, v3⟩ := hv
  obtain ⟨x1, x2, x3⟩ := hx
  obtain ⟨t1, t2⟩ := halfMax_twice
  have hk0 : 0 < k.val := by linarith [show (0 : Rat) < 1 + 1 / 2 ^ 23 by norm_num]
  have hkge : 1 ≤ k.val := by linarith [show (0 : Rat) < 1 / 2 ^ 23 by norm_num]
  have d0 : |rnd (x.val - v.val)| ≤ 2 * halfMax := by
    rw [abs_le] at v3 x3 ⊢
    have a := rnd_mono (show x.val - v.val ≤ 2 * halfMax by linarith)
    have b := rnd_mono (show -(2 * halfMax) ≤ x.val - v.val by linarith)
    rw [t1] at a
    rw [rnd_neg, t1] at b
    exact ⟨b, a⟩
  have d1 := sub_val x1 v1 (d0.trans_lt t2)
  have e0 : |rnd ((Fl.sub x v).val / k.val)| ≤ 2 * halfMax := by
    rw [d1.2]
    have hq : |rnd (x.val - v.val) / k.val| ≤ 2 * halfMax := by
      rw [abs_div, abs_of_pos hk0]
      exact (div_le_self (abs_nonneg _) hkge).trans d0
    rw [abs_le] at hq ⊢
    have a := rnd_mono hq.2
    have b := rnd_mono hq.1
    rw [t1] at a
    rw [rnd_neg, t1] at b
    exact ⟨b, a⟩
  have e1 := div_val d1.1 hk (sub_ok x v) hko hk0.ne' (e0.trans_lt t2)
  rw [d1.2] at e1
  have key := average_between (k := k.val) (lo := min v.val x.val) (hi := max v.val x.val) v2.rnd_val x2.rnd_val hk1 (min_le_left _ _) (le_max_left _ _)
    (min_le_right _ _) (le_max_right _ _)
  have hb : |rnd (v.val + (Fl.div (Fl.sub x v) k).val)| ≤ halfMax := by
    rw [e1.2, abs_le]
    rw [abs_le] at v3 x3
    exact ⟨(le_min v3.1 x3.1).trans key.1, key.2.trans (max_le v3.2 x3.2)⟩
  have hpos : 0 ≤ halfMax := (abs_nonneg _).trans v3
  have r1 := add_val v1 e1.1 (lt_of_le_of_lt hb (by linarith))
  change Tame (Fl.add v _) ∧ lo ≤ (Fl.add v (Fl.div (Fl.sub x v) k)).val ∧ (Fl.add v (Fl.div (Fl.sub x v) k)).val ≤ hi
  rw [r1.2, e1.2]
  refine ⟨⟨r1.1, add_ok _ _, ?_⟩, (le_min h1 h3).trans key.1, key.2.trans (max_le h2 h4)⟩
  change |(Fl.add v (Fl.div (Fl.sub x v) k)).val| ≤ halfMax
  rw [r1.2]
  exact hb

/-- After the first sample, with bounds on all samples. -/
theorem samples_between {k : Fl} (hk : k.Ok) (hk1 : Fl.le k (Arith.ofRat 1) = false) {lo hi : Rat} (xs : List Fl) : ∀ s : Ewma Fl, Count s.n → Tame s.value →
    lo ≤ s.value.val → s.value.val ≤ hi → (∀ x ∈ xs, Tame x ∧ lo ≤ x.val ∧ x.val ≤ hi) →
    Tame (s.samples k xs).value ∧ lo ≤ (s.samples k xs).value.val ∧ (s.samples k xs).value.val ≤ hi := by
  induction xs with
  | nil => intro s _ h1 h2 h3 _; exact ⟨h1, h2, h3⟩
  | cons x xs ih =>
    intro s hn h1 h2 h3 hx
    obtain ⟨hx0, hxl, hxh⟩ := hx x List.mem_cons_self
    have hc := count_step hn
    have hne : feq s.n fzero = false := by
      obtain ⟨a1, a2, a3, a4⟩ := hn
      have hz : (fzero : Fl) = .num false 0 := by decide +kernel
      have : Fl.le s.n fzero = false := by
        rw [Bool.eq_false_iff, ne_eq, le_iff a1 (by rw [hz]; rfl), hz, show (Fl.num false 0).val = 0 from rfl]
        linarith
      unfold feq
      change (Fl.le s.n fzero && _) = false
      rw [this, Bool.false_and]
    have e : s.sample k x = ⟨Arith.add s.n (Arith.ofRat 1), Arith.add s.value (Arith.div (Arith.sub x s.value) (fmin (Arith.add s.n (Arith.ofRat 1)) k))⟩ := by
      simp [sample, hne]
    have hd := divisor hc.1 hc.2 hk hk1
    have hv := value_step h1 hx0 hd.1 hd.2.1 hd.2.2 h2 h3 hxl hxh
    change Tame ((s.sample k x).samples k xs).value ∧ _ ≤ ((s.sample k x).samples k xs).value.val ∧ ((s.sample k x).samples k xs).value.val ≤ _
    rw [e]
    exact ih _ hc.1 hv.1 hv.2.1 hv.2.2 (fun y hy => hx y (List.mem_cons_of_mem _ hy))

end Ewma
end Spine
