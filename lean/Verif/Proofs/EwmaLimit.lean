import Verif.Proofs.Ewma
/-!
# Lemmas about averages of a constant sample
-/

namespace Spine
namespace F32

/-- The error of rounding, for all numbers. -/
theorem rnd_err_all (q : Rat) : |rnd q - q| ≤ |q| / 2 ^ 24 + pow2 (-150) := by
  have hp := pow2_pos (-150)
  by_cases h : pow2 (-126) ≤ |q|
  · linarith [rnd_err h]
  · push Not at h
    by_cases h0 : q = 0
    · subst h0; rw [rnd_zero]; simp; linarith
    have he : expo q = -149 := by
      have sp := ilog2_spec (abs_pos.mpr h0)
      have := lt_of_pow2_lt (lt_of_le_of_lt sp.1 h)
      unfold expo; omega
    have g := grid_err (expo q) q
    have e2 : pow2 (-149) = 2 * pow2 (-150) := by rw [pow2_eq, pow2_eq]; norm_num
    rw [rnd, if_neg h0]
    rw [he] at g ⊢
    have : 0 ≤ |q| / 2 ^ 24 := by positivity
    linarith

/-- Where an average with a constant sample from below stays, it is close. -/
theorem stuck_up {v x k : Rat} (hvx : v ≤ x) (hk : 1 ≤ k) (h : rnd (v + rnd (rnd (x - v) / k)) = v) :
    x - v ≤ k * (|v| / 2 ^ 23 + pow2 (-147)) := by
  have hk0 : 0 < k := by linarith
  set η := pow2 (-150) with hη
  have hp : 0 < η := pow2_pos _
  have e147 : pow2 (-147) = 8 * η := by rw [hη, pow2_eq, pow2_eq]; norm_num
  have hD : 0 ≤ x - v := by linarith
  have hd : 0 ≤ rnd (x - v) := rnd_nonneg hD
  have hq : 0 ≤ rnd (x - v) / k := div_nonneg hd hk0.le
  have he : 0 ≤ rnd (rnd (x - v) / k) := rnd_nonneg hq
  have a := abs_le.mp (rnd_err_all (x - v))
  have b := abs_le.mp (rnd_err_all (rnd (x - v) / k))
  have c := abs_le.mp (rnd_err_all (v + rnd (rnd (x - v) / k)))
  rw [h] at c
  rw [abs_of_nonneg hD] at a
  rw [abs_of_nonneg hq] at b
  have tri : |v + rnd (rnd (x - v) / k)| ≤ |v| + rnd (rnd (x - v) / k) := (abs_add_le _ _).trans (by rw [abs_of_nonneg he])
  generalize rnd (rnd (x - v) / k) = e at *
  have hqk : rnd (x - v) = rnd (x - v) / k * k := by field_simp
  generalize rnd (x - v) / k = q at *
  rw [hqk] at a
  have hv := abs_nonneg v
  have h1 : e ≤ (|v| / 2 ^ 24 + η) * (1 + 1 / 2 ^ 23) := by nlinarith [c.1]
  have h2 : q ≤ (e + η) * (1 + 1 / 2 ^ 23) := by nlinarith [b.1]
  have h3 : x - v ≤ (q * k + η) * (1 + 1 / 2 ^ 23) := by nlinarith [a.1]
  have h4 : q ≤ |v| / 2 ^ 24 * (3 / 2) + 3 * η := by nlinarith
  have h5 : q * k ≤ (|v| / 2 ^ 24 * (3 / 2) + 3 * η) * k := mul_le_mul_of_nonneg_right h4 hk0.le
  have h6 : η ≤ η * k := by nlinarith
  rw [e147]
  have h7 : 0 ≤ |v| * k := by positivity
  nlinarith

/-- The same from both sides. -/
theorem stuck {v x k : Rat} (hk : 1 ≤ k) (h : rnd (v + rnd (rnd (x - v) / k)) = v) : |x - v| ≤ k * (|v| / 2 ^ 23 + pow2 (-147)) := by
  rcases le_total v x with hv | hv
  · rw [abs_of_nonneg (by linarith)]; exact stuck_up hv hk h
  · have := stuck_up (v := -v) (x := -x) (k := k) (by linarith) hk (by
      rw [show -x - -v = -(x - v) by ring, rnd_neg, neg_div, rnd_neg, ← neg_add, rnd_neg, h])
    rw [abs_neg] at this
    rw [abs_of_nonpos (by linarith)]; linarith

/-- A bounded sequence of integers that does not fall ends up constant. -/
theorem eventually_const (a : Nat → Int) (hm : ∀ n, a n ≤ a (n + 1)) (B : Int) (hb : ∀ n, a n ≤ B) : ∃ N, ∀ n, N ≤ n → a n = a N := by
  have mono : ∀ m n, a m ≤ a (m + n) := by
    intro m n
    induction n with
    | zero => exact le_refl _
    | succ n ih => exact ih.trans (hm _)
  by_contra hc
  push Not at hc
  have grow : ∀ j : Nat, ∃ n, a 0 + j ≤ a n := by
    intro j
    induction j with
    | zero => exact ⟨0, by simp⟩
    | succ j ih =>
      obtain ⟨n, hn⟩ := ih
      obtain ⟨m, hm1, hm2⟩ := hc n
      have := mono n (m - n)
      rw [Nat.add_sub_cancel' hm1] at this
      exact ⟨m, by push_cast; omega⟩
  obtain ⟨n, hn⟩ := grow (B - a 0 + 1).toNat
  have := hb n
  have := hb 0
  omega

end F32

namespace Ewma
open Fl F32

/-- The value after a sample, as a number. -/
theorem value_val {v x k : Fl} (hv : Tame v) (hx : Tame x) (hk : k.fin = true) (hko : k.Ok) (hk1 : 1 + 1 / 2 ^ 23 ≤ k.val) :
    (Arith.add v (Arith.div (Arith.sub x v) k)).val = rnd (v.val + rnd (rnd (x.val - v.val) / k.val)) := by
  obtain ⟨v1, v2, v3⟩ := hv
  obtain ⟨x1, x2, x3⟩ := hx
  obtain ⟨t1, t2⟩ := halfMax_twice
  have hk0 : 0 < k.val := by linarith [show (0 : Rat) < 1 + 1 / 2 ^ 23 by norm_num]
  have hkge : 1 ≤ k.val := by linarith [show (0 : Rat) < 1 / 2 ^ 23 by norm_num]
  have d0 : |rnd (x.val - v.val)| ≤ 2 * halfMax := by
    rw [abs_le] at v3 x3 ⊢
    have a := rnd_mono (show x.val - v.val ≤ 2 * halfMax by linarith)
    have b := rnd_mono (show -(2 * halfMax) ≤ x.val - v.val by linarith)
    rw [t1] at a
    rw [rnd_neg, t1] at b
    exact ⟨b, a⟩
  have d1 := sub_val x1 v1 (d0.trans_lt t2)
  have e0 : |rnd ((Fl.sub x v).val / k.val)| ≤ 2 * halfMax := by
    rw [d1.2]
    have hq : |rnd (x.val - v.val) / k.val| ≤ 2 * halfMax := by
      rw [abs_div, abs_of_pos hk0]
      exact (div_le_self (abs_nonneg _) hkge).trans d0
    rw [abs_le] at hq ⊢
    have a := rnd_mono hq.2
    have b := rnd_mono hq.1
    rw [t1] at a
    rw [rnd_neg, t1] at b
    exact ⟨b, a⟩
  have e1 := div_val d1.1 hk (sub_ok x v) hko hk0.ne' (e0.trans_lt t2)
  rw [d1.2] at e1
  have key := average_between (k := k.val) (lo := min v.val x.val) (hi := max v.val x.val) v2.rnd_val x2.rnd_val hk1 (min_le_left _ _) (le_max_left _ _)
    (min_le_right _ _) (le_max_right _ _)
  have hb : |rnd (v.val + (Fl.div (Fl.sub x v) k).val)| ≤ halfMax := by
    rw [e1.2, abs_le]
    rw [abs_le] at v3 x3
    exact ⟨(le_min v3.1 x3.1).trans key.1, key.2.trans (max_le v3.2 x3.2)⟩
  have hpos : 0 ≤ halfMax := (abs_nonneg _).trans v3
  have r1 := add_val v1 e1.1 (lt_of_le_of_lt hb (by linarith))
  change (Fl.add v (Fl.div (Fl.sub x v) k)).val = _
  rw [r1.2, e1.2]

/-- A filter that has seen `m + 1` samples. -/
def Seen (m : Nat) (s : Ewma Fl) : Prop := Count s.n ∧ s.n.val = ((min (m + 1) (2 ^ 24) : Nat) : Rat) ∧ Tame s.value

theorem rnd_top : rnd (2 ^ 24 + 1) = 2 ^ 24 := by decide +kernel

theorem seen_step {k : Fl} (hk : k.Ok) (hk1 : Fl.le k (Arith.ofRat 1) = false) {m : Nat} {s : Ewma Fl} (h : Seen m s) {x : Fl} (hx : Tame x) :
    Seen (m + 1) (s.sample k x) ∧ ∃ d : Fl, d = fmin (s.sample k x).n k ∧ 1 + 1 / 2 ^ 23 ≤ d.val ∧
      (s.sample k x).value.val = rnd (s.value.val + rnd (rnd (x.val - s.value.val) / d.val)) := by
  obtain ⟨hn, hnv, hv⟩ := h
  have hc := count_step hn
  have hz : (fzero : Fl) = .num false 0 := by decide +kernel
  have hne : feq s.n fzero = false := by
    obtain ⟨a1, a2, a3, a4⟩ := hn
    have : Fl.le s.n fzero = false := by
      rw [Bool.eq_false_iff, ne_eq, le_iff a1 (by rw [hz]; rfl), hz, show (Fl.num false 0).val = 0 from rfl]
      linarith
    unfold feq
    change (Fl.le s.n fzero && _) = false
    rw [this, Bool.false_and]
  have e : s.sample k x = ⟨Arith.add s.n (Arith.ofRat 1), Arith.add s.value (Arith.div (Arith.sub x s.value) (fmin (Arith.add s.n (Arith.ofRat 1)) k))⟩ := by
    simp [sample, hne]
  have hd := divisor hc.1 hc.2 hk hk1
  rw [e]
  refine ⟨⟨hc.1, ?_, ?_⟩, _, rfl, hd.2.2, value_val hv hx hd.1 hd.2.1 hd.2.2⟩
  · have hone : (Arith.ofRat 1 : Fl).fin = true ∧ (Arith.ofRat 1 : Fl).val = 1 := by rw [ofRat_one]; exact ⟨rfl, rfl⟩
    have hr : rnd (s.n.val + 1) = ((min (m + 1 + 1) (2 ^ 24) : Nat) : Rat) := by
      rw [hnv]
      rcases Nat.lt_or_ge (m + 1) (2 ^ 24) with hlt | hge
      · rw [Nat.min_eq_left hlt.le, Nat.min_eq_left (by omega)]
        have := rnd_int (n := ((m + 1 + 1 : Nat) : Int)) (by rw [abs_of_nonneg (by omega)]; omega)
        push_cast at this ⊢
        exact this
      · rw [Nat.min_eq_right hge, Nat.min_eq_right (by omega)]
        push_cast
        exact rnd_top
    have hlt : |rnd (s.n.val + (Arith.ofRat 1 : Fl).val)| < pow2 128 := by
      rw [hone.2, hr, abs_of_nonneg (Nat.cast_nonneg _)]
      have h1 : ((min (m + 1 + 1) (2 ^ 24) : Nat) : Rat) ≤ 2 ^ 24 := by exact_mod_cast Nat.min_le_right _ _
      exact h1.trans_lt (by decide +kernel)
    have := add_val hn.1 hone.1 hlt
    rw [hone.2] at this
    exact this.2.trans hr
  · exact (value_step hv hx hd.1 hd.2.1 hd.2.2 (min_le_left _ x.val) (le_max_left _ x.val) (min_le_right _ _) (le_max_right _ _)).1

/-- Once the frame is full, the divisor is its length. -/
theorem divisor_full {k n : Fl} (hkf : k.fin = true) (hn : n.fin = true) (h : k.val ≤ n.val) : (fmin n k).val = k.val := by
  unfold fmin
  split
  · rfl
  · next hl =>
    have : ¬ k.val < n.val := fun h' => hl ((lt_iff hkf hn).mpr h')
    exact le_antisymm (not_lt.mp this) h

end Ewma
end Spine
