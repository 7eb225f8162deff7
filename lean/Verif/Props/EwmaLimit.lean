import Verif.Proofs.EwmaLimit
/-!
# C111: an average of a constant sample
-/

namespace Spine
open Ewma F32

/-! ## In exact arithmetic -/

theorem samples_snoc {F : Type} [Arith F] (k : F) (s : Ewma F) (m : Nat) (x : F) :
    s.samples k (List.replicate (m + 1) x) = (s.samples k (List.replicate m x)).sample k x := by
  rw [List.replicate_succ', samples, List.foldl_append]; rfl

theorem sample_rat {k : Rat} {s : Ewma Rat} (hn : 1 ≤ s.n) (x : Rat) :
    (s.sample k x).n = s.n + 1 ∧ (s.sample k x).value = s.value + (x - s.value) / min (s.n + 1) k := by
  have hne : feq s.n (fzero : Rat) = false := by
    have : ¬ s.n ≤ 0 := by linarith
    have hz : (fzero : Rat) = 0 := rfl
    simp only [feq, hz]
    change (decide (s.n ≤ 0) && _) = false
    simp [this]
  have hm : fmin (Arith.add s.n (Arith.ofRat 1)) k = min (s.n + 1) k := by
    change (if decide (k < s.n + 1) = true then k else s.n + 1) = _
    rcases lt_or_ge k (s.n + 1) with h | h
    · rw [if_pos (by simpa using h), min_eq_right h.le]
    · rw [if_neg (by simpa using h), min_eq_left h]
  constructor
  · simp only [sample, hne]; rfl
  · simp only [sample, hne, hm]; rfl

/-- **C111** in exact arithmetic: from the second sample on, each sample of a constant brings the value closer to it by at least the factor `1 - 1 / k`. -/
theorem C111_geometric {k : Rat} (hk : 1 ≤ k) {s : Ewma Rat} (hn : 1 ≤ s.n) (x : Rat) (m : Nat) :
    |(s.samples k (List.replicate m x)).value - x| ≤ (1 - 1 / k) ^ m * |s.value - x| := by
  have hk0 : 0 < k := by linarith
  have hf : 0 ≤ 1 - 1 / k := by
    have : 1 / k ≤ 1 := by rw [div_le_one hk0]; exact hk
    linarith
  have hc : ∀ m, 1 ≤ (s.samples k (List.replicate m x)).n := by
    intro m
    induction m with
    | zero => exact hn
    | succ m ih => rw [samples_snoc, (sample_rat ih x).1]; linarith
  induction m with
  | zero => simp [samples]
  | succ m ih =>
    have h1 := hc m
    rw [samples_snoc, (sample_rat h1 x).2]
    generalize s.samples k (List.replicate m x) = t at *
    have hd : 1 ≤ min (t.n + 1) k := le_min (by linarith) hk
    have hd0 : 0 < min (t.n + 1) k := by linarith
    have e : t.value + (x - t.value) / min (t.n + 1) k - x = (1 - 1 / min (t.n + 1) k) * (t.value - x) := by field_simp; ring
    have f0 : 0 ≤ 1 - 1 / min (t.n + 1) k := by
      have : 1 / min (t.n + 1) k ≤ 1 := by rw [div_le_one hd0]; exact hd
      linarith
    have f1 : 1 - 1 / min (t.n + 1) k ≤ 1 - 1 / k := by
      have : 1 / k ≤ 1 / min (t.n + 1) k := one_div_le_one_div_of_le hd0 (min_le_right _ _)
      linarith
    rw [e, abs_mul, abs_of_nonneg f0, pow_succ]
    calc (1 - 1 / min (t.n + 1) k) * |t.value - x| ≤ (1 - 1 / k) * |t.value - x| := mul_le_mul_of_nonneg_right f1 (abs_nonneg _)
      _ ≤ (1 - 1 / k) * ((1 - 1 / k) ^ m * |s.value - x|) := mul_le_mul_of_nonneg_left ih hf
      _ = (1 - 1 / k) ^ m * (1 - 1 / k) * |s.value - x| := by ring

/-- Three samples of 8 after one of 0, with a frame of two: 4, 6, 7. -/
example : (((Ewma.create.sample 2 0).samples 2 (List.replicate 3 8)).value : Rat) = 7 := by decide +kernel

/-! ## In single precision -/

theorem seen_first {k : Fl} {x v0 : Fl} (s0 : Ewma Fl) (hx : Tame x) : Seen 0 ((s0.reset v0).sample k x) := by
  have e : (s0.reset v0).sample k x = ⟨.num false 1, x⟩ := by
    have h1 : (Arith.add fzero (Arith.ofRat 1) : Fl) = .num false 1 := by decide +kernel
    have h2 : feq (fzero : Fl) fzero = true := by decide +kernel
    simp only [sample, Ewma.reset, h2, if_true, h1]
  rw [e]
  exact ⟨⟨rfl, ⟨by norm_num, by decide +kernel, by decide +kernel⟩, by norm_num [Fl.val], by norm_num [Fl.val]⟩, by norm_num [Fl.val], hx⟩

theorem seen_samples {k : Fl} (hk : k.Ok) (hk1 : Fl.le k (Arith.ofRat 1) = false) (xs : List Fl) : ∀ {m : Nat} {s : Ewma Fl}, Seen m s → (∀ x ∈ xs, Tame x) →
    Seen (m + xs.length) (s.samples k xs) := by
  induction xs with
  | nil => intro m s h _; exact h
  | cons x xs ih =>
    intro m s h hx
    have := ih (seen_step hk hk1 h (hx x List.mem_cons_self)).1 (fun y hy => hx y (List.mem_cons_of_mem _ hy))
    rw [List.length_cons, show m + (xs.length + 1) = m + 1 + xs.length by omega]
    exact this

/-- The sequence of values under a constant sample does not leave the side it is on. -/
theorem one_sided {k : Fl} (hk : k.Ok) (hk1 : Fl.le k (Arith.ofRat 1) = false) {m₀ : Nat} {s : Ewma Fl} (h : Seen m₀ s) {x : Fl} (hx : Tame x) (m : Nat) :
    (s.value.val ≤ x.val → (s.samples k (List.replicate m x)).value.val ≤ (s.samples k (List.replicate (m + 1) x)).value.val ∧
      (s.samples k (List.replicate m x)).value.val ≤ x.val) ∧
    (x.val ≤ s.value.val → (s.samples k (List.replicate (m + 1) x)).value.val ≤ (s.samples k (List.replicate m x)).value.val ∧
      x.val ≤ (s.samples k (List.replicate m x)).value.val) := by
  have hs : ∀ m, Seen (m₀ + m) (s.samples k (List.replicate m x)) := by
    intro m
    have := seen_samples hk hk1 (List.replicate m x) h (fun y hy => by rw [List.eq_of_mem_replicate hy]; exact hx)
    simpa using this
  have step : ∀ m, ((s.samples k (List.replicate m x)).value.val ≤ x.val → (s.samples k (List.replicate m x)).value.val ≤
      (s.samples k (List.replicate (m + 1) x)).value.val ∧ (s.samples k (List.replicate (m + 1) x)).value.val ≤ x.val) ∧
      (x.val ≤ (s.samples k (List.replicate m x)).value.val → (s.samples k (List.replicate (m + 1) x)).value.val ≤
      (s.samples k (List.replicate m x)).value.val ∧ x.val ≤ (s.samples k (List.replicate (m + 1) x)).value.val) := by
    intro m
    obtain ⟨_, d, _, hd, he⟩ := seen_step hk hk1 (hs m) hx
    rw [samples_snoc, he]
    have hv := (hs m).2.2.2.1.rnd_val
    have hxr := hx.2.1.rnd_val
    constructor
    · intro hle
      exact average_between hv hxr hd (le_refl _) hle hle (le_refl _)
    · intro hle
      have := average_between hv hxr hd hle (le_refl _) (le_refl _) hle
      exact ⟨this.2, this.1⟩
  have side : (s.value.val ≤ x.val → (s.samples k (List.replicate m x)).value.val ≤ x.val) ∧
      (x.val ≤ s.value.val → x.val ≤ (s.samples k (List.replicate m x)).value.val) := by
    induction m with
    | zero => exact ⟨id, id⟩
    | succ m ih => exact ⟨fun h => ((step m).1 (ih.1 h)).2, fun h => ((step m).2 (ih.2 h)).2⟩
  exact ⟨fun h => ⟨((step m).1 (side.1 h)).1, side.1 h⟩, fun h => ⟨((step m).2 (side.2 h)).1, side.2 h⟩⟩

/-- The frame length that counts, for frame lengths above 1: a count in single precision ends at 2^24; longer, infinite and NaN frames are as long. -/
def frame (k : Fl) : Rat := if k.fin = true ∧ k.val ≤ 2 ^ 24 then k.val else 2 ^ 24

theorem divisor_frame {k n : Fl} (hk1 : Fl.le k (Arith.ofRat 1) = false) (hn : n.fin = true) (hn24 : n.val = 2 ^ 24) : (fmin n k).val = frame k := by
  unfold frame
  split
  · next h => exact divisor_full h.1 hn (by rw [hn24]; exact h.2)
  · next h =>
    cases k with
    | nan => exact hn24
    | inf s =>
      cases s
      · cases n with
        | num t m => exact hn24
        | nan => cases hn
        | inf t => cases hn
      · exact absurd hk1 (by decide +kernel)
    | num s m =>
      have hlt : ¬ (Fl.num s m).val < n.val := fun hc => h ⟨rfl, by rw [← hn24]; exact hc.le⟩
      unfold fmin
      split
      · next hc => exact absurd ((Fl.lt_iff rfl hn).mp hc) hlt
      · exact hn24

/-- **C111** in single precision, for every frame length above 1, after any samples of at most half the largest float: if the same sample is given
again and again, the value settles after finitely many of them, at a distance of at most `k` units in the last place (and, near zero, `4 k` of the smallest
floats), `k` the frame length or 2^24 if that is less. Missing: frame lengths up to 1, and larger samples, where it is false (`C111_overflow_counterexample`); that it settles at
the sample is false, too (`C111_stalls_counterexample`). -/
theorem C111_settles_partial {k v0 : Fl} (s0 : Ewma Fl) (hk : k.Ok) (hk1 : Fl.le k (Arith.ofRat 1) = false)
    {ys : List Fl} (hne : ys ≠ []) (hy : ∀ y ∈ ys, y.fin = true ∧ y.Ok ∧ |y.val| ≤ halfMax) {x : Fl} (hx : x.fin = true ∧ x.Ok ∧ |x.val| ≤ halfMax) :
    ∃ (N : Nat) (v : Rat), (∀ m, N ≤ m → ((s0.reset v0).samples k (ys ++ List.replicate m x)).value.val = v) ∧
      |x.val - v| ≤ frame k * (|v| / 2 ^ 23 + pow2 (-147)) := by
  obtain ⟨y, ys', rfl⟩ := List.exists_cons_of_ne_nil hne
  have h0 := seen_samples hk hk1 ys' (seen_first (k := k) (v0 := v0) s0 (hy y List.mem_cons_self)) (fun z hz => hy z (List.mem_cons_of_mem _ hz))
  have esplit : ∀ m, (s0.reset v0).samples k (y :: ys' ++ List.replicate m x) =
      (((s0.reset v0).sample k y).samples k ys').samples k (List.replicate m x) := by
    intro m; simp [samples, List.foldl_append]
  simp only [esplit]
  generalize ((s0.reset v0).sample k y).samples k ys' = s at h0
  generalize 0 + ys'.length = m₀ at h0
  have hs : ∀ m, Seen (m₀ + m) (s.samples k (List.replicate m x)) := by
    intro m
    have := seen_samples hk hk1 (List.replicate m x) h0 (fun y hy => by rw [List.eq_of_mem_replicate hy]; exact hx)
    simpa using this
  have hgrid : ∀ m, ∃ a : Int, (s.samples k (List.replicate m x)).value.val = a * pow2 (-149) := fun m => grid_of_rnd (hs m).2.2.2.1.rnd_val
  choose a ha using hgrid
  obtain ⟨X, hX⟩ := grid_of_rnd hx.2.1.rnd_val
  have hp := pow2_pos (-149)
  have cast_le : ∀ {i j : Int}, (i : Rat) * pow2 (-149) ≤ j * pow2 (-149) → i ≤ j := fun h => by exact_mod_cast le_of_mul_le_mul_right h hp
  have hconst : ∃ N, ∀ n, N ≤ n → a n = a N := by
    rcases le_total s.value.val x.val with hle | hle
    · refine eventually_const a (fun n => ?_) X (fun n => ?_)
      · have := ((one_sided hk hk1 h0 hx n).1 hle).1
        rw [ha, ha] at this; exact cast_le this
      · have := ((one_sided hk hk1 h0 hx n).1 hle).2
        rw [ha, hX] at this; exact cast_le this
    · obtain ⟨N, hN⟩ := eventually_const (fun n => -a n) (fun n => by
        have := ((one_sided hk hk1 h0 hx n).2 hle).1
        rw [ha, ha] at this; exact neg_le_neg (cast_le this)) (-X) (fun n => by
        have := ((one_sided hk hk1 h0 hx n).2 hle).2
        rw [ha, hX] at this; exact neg_le_neg (cast_le this))
      exact ⟨N, fun n hn => neg_injective (hN n hn)⟩
  obtain ⟨N, hN⟩ := hconst
  have hv : ∀ m, N ≤ m → (s.samples k (List.replicate m x)).value.val = (s.samples k (List.replicate N x)).value.val := by
    intro m hm; rw [ha, ha, hN m hm]
  refine ⟨N, (s.samples k (List.replicate N x)).value.val, hv, ?_⟩
  set M := max N (2 ^ 24) with hM
  have hMN : N ≤ M := le_max_left _ _
  obtain ⟨hseen, d, hd, hd1, he⟩ := seen_step hk hk1 (hs M) hx
  rw [← samples_snoc] at hseen hd he
  have hkd : d.val = frame k := by
    rw [hd]
    refine divisor_frame hk1 hseen.1.1 ?_
    rw [hseen.2.1, Nat.min_eq_right (by have : 2 ^ 24 ≤ M := le_max_right _ _; omega)]
    norm_num
  rw [hkd] at hd1 he
  rw [hv (M + 1) (by omega), hv M hMN] at he
  exact stuck (by linarith [show (0 : Rat) < 1 / 2 ^ 23 by norm_num]) he.symm

/-- The hypotheses are met by the frames of the library, 10 and 100. -/
example : Fl.le (Fl.ofRat 100) (Arith.ofRat 1) = false ∧ frame (Fl.ofRat 100) = 100 ∧ frame (Fl.ofRat 10) = 10 := by decide +kernel

/-- They are met by a frame of 2^30 and by an infinite one, too. -/
example : Fl.le (Fl.ofRat (2 ^ 30)) (Arith.ofRat 1) = false ∧ frame (Fl.ofRat (2 ^ 30)) = 2 ^ 24 ∧ Fl.le (.inf false) (Arith.ofRat 1) = false ∧ frame (.inf false) = 2 ^ 24 := by decide +kernel

/-- A value that is not a number remains so, whatever samples follow. -/
theorem nan_stays {k : Fl} (xs : List Fl) : ∀ {s : Ewma Fl}, Count s.n → s.value = .nan → (s.samples k xs).value = .nan := by
  induction xs with
  | nil => intro s _ h; exact h
  | cons x xs ih =>
    intro s hn hv
    have hne : feq s.n fzero = false := by
      obtain ⟨a1, a2, a3, a4⟩ := hn
      have hz : (fzero : Fl) = .num false 0 := by decide +kernel
      have : Fl.le s.n fzero = false := by
        rw [Bool.eq_false_iff, ne_eq, Fl.le_iff a1 (by rw [hz]; rfl), hz, show (Fl.num false 0).val = 0 from rfl]
        linarith
      change (Fl.le s.n fzero && _) = false
      rw [this]; rfl
    refine ih (s := s.sample k x) ?_ ?_
    · simp only [sample, hne]; exact (count_step hn).1
    · simp only [sample, hne, hv]; rfl

/-- With a frame of two, after a sample of `-FLT_MAX` two samples of `FLT_MAX` make the value NaN, and it stays so for any number of samples. -/
theorem C111_overflow_counterexample (m : Nat) :
    (Ewma.create.samples (Fl.ofRat 2) (Fl.ofRat (-(2 * halfMax)) :: List.replicate (m + 2) (Fl.ofRat (2 * halfMax)))).value = .nan := by
  have h0 : Ewma.create.samples (Fl.ofRat 2) (Fl.ofRat (-(2 * halfMax)) :: List.replicate 2 (Fl.ofRat (2 * halfMax))) = ⟨Fl.ofRat 3, .nan⟩ := by clear m; decide +kernel
  have split : Ewma.create.samples (Fl.ofRat 2) (Fl.ofRat (-(2 * halfMax)) :: List.replicate (m + 2) (Fl.ofRat (2 * halfMax))) =
      (Ewma.create.samples (Fl.ofRat 2) (Fl.ofRat (-(2 * halfMax)) :: List.replicate 2 (Fl.ofRat (2 * halfMax)))).samples (Fl.ofRat 2) (List.replicate m (Fl.ofRat (2 * halfMax))) := by
    rw [Nat.add_comm, List.replicate_add]
    simp only [samples, List.foldl_cons, List.foldl_append]
  rw [split, h0]
  exact nan_stays _ ⟨by decide +kernel, Fl.ofRat_ok _, by decide +kernel, by decide +kernel⟩ rfl

/-- With a frame of 100, after a hundred samples of 1 no number of samples of 1 + 2^-20, the 8th float above 1, changes the value. -/
theorem C111_stalls_counterexample (m : Nat) :
    (Ewma.create.samples (Fl.ofRat 100) (List.replicate 100 (Fl.ofRat 1) ++ List.replicate m (Fl.ofRat (1 + 1 / 2 ^ 20)))).value.val = 1 := by
  have hk : (Fl.ofRat 100).Ok := Fl.ofRat_ok _
  have hk1 : Fl.le (Fl.ofRat 100) (Arith.ofRat 1) = false := by decide +kernel
  have h1 : Tame (Fl.ofRat 1) := ⟨by decide +kernel, Fl.ofRat_ok _, by decide +kernel⟩
  have hx : Tame (Fl.ofRat (1 + 1 / 2 ^ 20)) := ⟨by decide +kernel, Fl.ofRat_ok _, by decide +kernel⟩
  have hfirst : Seen 99 (Ewma.create.samples (Fl.ofRat 100) (List.replicate 100 (Fl.ofRat 1))) := by
    have := seen_samples hk hk1 (List.replicate 99 (Fl.ofRat 1)) (seen_first (k := Fl.ofRat 100) (v0 := fzero) Ewma.create h1)
      (fun y hy => by rw [List.eq_of_mem_replicate hy]; exact h1)
    rw [List.length_replicate, Nat.zero_add] at this
    exact this
  have hone : (Ewma.create.samples (Fl.ofRat 100) (List.replicate 100 (Fl.ofRat 1))).value.val = 1 := by
    have := samples_between hk hk1 (lo := 1) (hi := 1) (List.replicate 99 (Fl.ofRat 1)) ⟨.num false 1, Fl.ofRat 1⟩
      ⟨rfl, ⟨by norm_num, by decide +kernel, by decide +kernel⟩, by norm_num [Fl.val], by norm_num [Fl.val]⟩ h1 (by decide +kernel) (by decide +kernel)
      (fun y hy => by rw [List.eq_of_mem_replicate hy]; exact ⟨h1, by decide +kernel, by decide +kernel⟩)
    have e : (Ewma.create.sample (Fl.ofRat 100) (Fl.ofRat 1) : Ewma Fl) = ⟨.num false 1, Fl.ofRat 1⟩ := by decide +kernel
    rw [List.replicate_succ, samples, List.foldl_cons, e]
    exact le_antisymm this.2.2 this.2.1
  rw [samples, List.foldl_append]
  change (((Ewma.create.samples (Fl.ofRat 100) (List.replicate 100 (Fl.ofRat 1)) : Ewma Fl).samples (Fl.ofRat 100)
    (List.replicate m (Fl.ofRat (1 + 1 / 2 ^ 20)))).value : Fl).val = 1
  generalize Ewma.create.samples (Fl.ofRat 100) (List.replicate 100 (Fl.ofRat 1)) = s at hfirst hone
  have hall : ∀ m, Seen (99 + m) (s.samples (Fl.ofRat 100) (List.replicate m (Fl.ofRat (1 + 1 / 2 ^ 20)))) := by
    intro m
    have := seen_samples hk hk1 (List.replicate m (Fl.ofRat (1 + 1 / 2 ^ 20))) hfirst (fun y hy => by rw [List.eq_of_mem_replicate hy]; exact hx)
    simpa using this
  induction m with
  | zero => exact hone
  | succ m ih =>
    obtain ⟨hseen, d, hd, hd1, he⟩ := seen_step hk hk1 (hall m) hx
    rw [samples_snoc, he, ih]
    have hkd : d.val = 100 := by
      rw [hd, divisor_full (by decide +kernel) hseen.1.1 ?_]
      · decide +kernel
      · rw [hseen.2.1, show (Fl.ofRat 100).val = 100 by decide +kernel]
        have : 100 ≤ min (99 + m + 1 + 1) (2 ^ 24) := by omega
        exact_mod_cast this
    rw [hkd]
    decide +kernel

end Spine
