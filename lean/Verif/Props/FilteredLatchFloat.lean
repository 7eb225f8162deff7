import Verif.Props.FilteredLatch
import Verif.Props.FilterAccuracy
import Verif.Props.EwmaLimit
/-!
# C156: spikes and drop-outs in single precision
-/

namespace Spine
open Latch F32 Fl Ewma

/-- The error of one computation of the average of samples up to `B`. -/
def averageError (B : Rat) : Rat := B / 2 ^ 22 + pow2 (-149)

theorem averageError_nonneg {B : Rat} (hB : 0 ≤ B) : 0 ≤ averageError B := by
  have := pow2_pos (-149)
  unfold averageError
  positivity

/-- One step of an average whose frame is full: a sample beyond `C` costs one step of the way to `X` and one rounding error, another sample costs nothing. -/
theorem step_fl {σ : Rat} (hσ : σ = 1 ∨ σ = -1) {k : Fl} (hk : k.Ok) (hkf : k.fin = true) (hk2 : 2 ≤ k.val) (hk24 : k.val ≤ 2 ^ 24) {B C X : Rat} (hCX : C ≤ X)
    {n : Nat} {s : Ewma Fl} (hs : Seen n s) (hfull : k.val ≤ n + 2) (hv : |s.value.val| ≤ B) {x : Fl} (hx : Tame x) (hxB : |x.val| ≤ B) (hxX : σ * x.val ≤ X) {j : Nat}
    (h : σ * s.value.val ≤ reach k.val C X j + j * averageError B) :
    Seen (n + 1) (s.sample k x) ∧ |(s.sample k x).value.val| ≤ B ∧
      σ * (s.sample k x).value.val ≤ reach k.val C X (if C < σ * x.val then j + 1 else j) + (if C < σ * x.val then j + 1 else j : Nat) * averageError B := by
  have hk1 : Fl.le k (Arith.ofRat 1) = false := by
    rw [ofRat_one, Bool.eq_false_iff, ne_eq, le_iff hkf rfl]
    change ¬ k.val ≤ 1
    linarith
  have hB : 0 ≤ B := (abs_nonneg _).trans hv
  have he := averageError_nonneg hB
  obtain ⟨hs', d, hd, hd1, hval⟩ := seen_step hk hk1 hs hx
  have hdv : d.val = k.val := by
    rw [hd]
    refine divisor_full hkf hs'.1.1 ?_
    rw [hs'.2.1, Nat.cast_min]
    refine le_min ?_ (by push_cast; exact hk24)
    push_cast
    linarith
  have hstep := FilterAccuracy.step_close (d := d.val) hs.2.2.2.1.rnd_val hx.2.1.rnd_val (by rw [hdv]; exact hk2) hv hxB
  have hbet := average_between (k := d.val) (lo := min s.value.val x.val) (hi := max s.value.val x.val) hs.2.2.2.1.rnd_val hx.2.1.rnd_val hd1
    (min_le_left _ _) (le_max_left _ _) (min_le_right _ _) (le_max_right _ _)
  rw [← hval] at hstep hbet
  rw [hdv] at hstep
  set v' := (s.sample k x).value.val
  refine ⟨hs', ?_, ?_⟩
  · rw [abs_le] at hv hxB ⊢
    exact ⟨(le_min hv.1 hxB.1).trans hbet.1, hbet.2.trans (max_le hv.2 hxB.2)⟩
  · have h2 : 1 / k.val ≤ 1 := by rw [div_le_one (by linarith)]; linarith
    have h3 : 0 ≤ 1 / k.val := by have : 0 < k.val := by linarith
                                  positivity
    split
    · have hup : σ * v' ≤ σ * (s.value.val + (x.val - s.value.val) / k.val) + averageError B := by
        rw [abs_le] at hstep
        have : averageError B = 4 * B / 2 ^ 24 + pow2 (-149) := by unfold averageError; ring
        rw [this]
        rcases hσ with rfl | rfl <;> linarith [hstep.1, hstep.2]
      have e : σ * (s.value.val + (x.val - s.value.val) / k.val) = σ * s.value.val * (1 - 1 / k.val) + σ * x.val * (1 / k.val) := by ring
      rw [e] at hup
      have h4 : (j : Rat) * averageError B * (1 - 1 / k.val) ≤ j * averageError B := by
        have : 0 ≤ (j : Rat) * averageError B := by positivity
        nlinarith
      calc σ * v' ≤ σ * s.value.val * (1 - 1 / k.val) + σ * x.val * (1 / k.val) + averageError B := hup
        _ ≤ (reach k.val C X j + j * averageError B) * (1 - 1 / k.val) + X * (1 / k.val) + averageError B := by gcongr
        _ = reach k.val C X (j + 1) + (j * averageError B * (1 - 1 / k.val) + averageError B) := by unfold reach; rw [pow_succ]; ring
        _ ≤ reach k.val C X (j + 1) + (j * averageError B + averageError B) := by linarith
        _ = reach k.val C X (j + 1) + (j + 1 : Nat) * averageError B := by push_cast; ring
    · next hc =>
      push Not at hc
      have h0 : C ≤ reach k.val C X j := by
        have := reach_mono (by linarith : 1 ≤ k.val) hCX (Nat.zero_le j)
        simpa [reach] using this
      have h5 : 0 ≤ (j : Rat) * averageError B := by positivity
      rcases hσ with rfl | rfl
      · rw [one_mul] at *
        exact hbet.2.trans (max_le h (by linarith))
      · have : v' ≥ -(reach k.val C X j + j * averageError B) := (le_min (by linarith) (by linarith)).trans hbet.1
        linarith

theorem spike_bound_fl {σ : Rat} (hσ : σ = 1 ∨ σ = -1) {k : Fl} (hk : k.Ok) (hkf : k.fin = true) (hk2 : 2 ≤ k.val) (hk24 : k.val ≤ 2 ^ 24) {B C X : Rat} (hCX : C ≤ X) (m : Nat) :
    ∀ (rs : List (Int × Fl)) {n : Nat} {s : Ewma Fl} {j : Nat}, Seen n s → k.val ≤ n + 2 → |s.value.val| ≤ B → σ * s.value.val ≤ reach k.val C X j + j * averageError B →
    (∀ r ∈ rs, Tame r.2 ∧ |r.2.val| ≤ B ∧ σ * r.2.val ≤ X) → rs.countP (fun r => decide (C < σ * r.2.val)) + j ≤ m →
    ∀ r ∈ averages k s rs, r.2.fin = true ∧ σ * r.2.val ≤ reach k.val C X m + m * averageError B := by
  intro rs
  induction rs with
  | nil => intro n s j _ _ _ _ _ _ r hr; cases hr
  | cons r0 rs ih =>
    intro n s j hs hfull hB hv hx hc r hr
    obtain ⟨t, x⟩ := r0
    obtain ⟨x1, x2, x3⟩ := hx (t, x) List.mem_cons_self
    obtain ⟨g1, g2, g3⟩ := step_fl hσ hk hkf hk2 hk24 hCX hs hfull hB x1 x2 x3 hv
    have hB0 : 0 ≤ B := (abs_nonneg _).trans hB
    have he := averageError_nonneg hB0
    rw [List.countP_cons] at hc
    have hc' : rs.countP (fun r => decide (C < σ * r.2.val)) + (if C < σ * x.val then j + 1 else j) ≤ m := by
      by_cases hs : C < σ * x.val
      · simp only [hs, decide_true, if_true] at hc ⊢; omega
      · simp only [hs, decide_false, Bool.false_eq_true, if_false] at hc ⊢; omega
    rw [averages] at hr
    rcases List.mem_cons.mp hr with rfl | hr
    · refine ⟨g1.2.2.1, g3.trans ?_⟩
      have hle : (if C < σ * x.val then j + 1 else j) ≤ m := by omega
      have a1 := reach_mono (by linarith : 1 ≤ k.val) hCX hle
      have a2 : (((if C < σ * x.val then j + 1 else j : Nat)) : Rat) * averageError B ≤ m * averageError B :=
        mul_le_mul_of_nonneg_right (by exact_mod_cast hle) he
      linarith
    · exact ih g1 (by push_cast; linarith) g2 g3 (fun r hr => hx r (List.mem_cons_of_mem _ hr)) hc' r hr

/-- After a nonempty series of samples on one side of `C`. -/
theorem full_frame {σ : Rat} (hσ : σ = 1 ∨ σ = -1) {k : Fl} (hk : k.Ok) (hk1 : Fl.le k (Arith.ofRat 1) = false) {B C : Rat} {xs : List Fl} (hne : xs ≠ [])
    (hx : ∀ x ∈ xs, Tame x ∧ |x.val| ≤ B ∧ σ * x.val ≤ C) :
    Seen (xs.length - 1) (Ewma.create.samples k xs) ∧ |(Ewma.create.samples k xs).value.val| ≤ B ∧ σ * (Ewma.create.samples k xs).value.val ≤ C := by
  obtain ⟨x, xs, rfl⟩ := List.exists_cons_of_ne_nil hne
  obtain ⟨f, ⟨a, ha, hla⟩, ⟨b, hb, hlb⟩⟩ := C48_range_partial (k := k) (v0 := fzero) Ewma.create hk hk1 hne (fun y hy => (hx y hy).1)
  have e : (Ewma.create : Ewma Fl).reset fzero = Ewma.create := rfl
  rw [e] at f hla hlb
  have ha' := hx a ha
  have hb' := hx b hb
  change Fl.le a _ = true at hla
  change Fl.le _ b = true at hlb
  rw [le_iff ha'.1.1 f] at hla
  rw [le_iff f hb'.1.1] at hlb
  refine ⟨?_, ?_, ?_⟩
  · have h0 := seen_first (k := k) (v0 := fzero) Ewma.create (hx x List.mem_cons_self).1
    have := seen_samples hk hk1 xs h0 (fun y hy => (hx y (List.mem_cons_of_mem _ hy)).1)
    rw [Nat.zero_add] at this
    exact this
  · rw [abs_le]
    have h1 := abs_le.mp ha'.2.1
    have h2 := abs_le.mp hb'.2.1
    exact ⟨by linarith, by linarith⟩
  · rcases hσ with rfl | rfl
    · linarith [hb'.2.2]
    · linarith [ha'.2.2]

/-- **C156 (partial)**, spikes in single precision: samples up to `c` for a whole frame, then any number of samples, of which at most `m` are above `c`, and none above `x`: the latch stays off if what `m` samples can make up
of the way from `c` to `x`, and one rounding error for each of them, does not reach the threshold. The number of the other samples does not matter. Missing: spikes before the frame is full
(`C156_first_counterexample`); frames shorter than 2 or longer than 2^24 samples; a maximal off time (C42). -/
theorem C156_spikes_float_partial {cfg : LatchConfig Fl} {k : Fl} {B c x : Rat} {t0 : Int} {pre rs : List (Int × Fl)} {os : List Bool} {m : Nat} (hmax : cfg.maxOff = 0) (hhigh : cfg.high.fin = true)
    (hk : k.Ok) (hkf : k.fin = true) (hk2 : 2 ≤ k.val) (hk24 : k.val ≤ 2 ^ 24) (hcx : c ≤ x) (hB : B ≤ halfMax) (hall : ∀ r ∈ pre ++ rs, r.2.fin = true ∧ r.2.Ok ∧ |r.2.val| ≤ B)
    (hfull : k.val ≤ pre.length) (hpre : ∀ r ∈ pre, r.2.val ≤ c) (hrs : ∀ r ∈ rs, r.2.val ≤ x) (hm : rs.countP (fun r => decide (c < r.2.val)) ≤ m)
    (hreach : x - (x - c) * (1 - 1 / k.val) ^ m + m * (B / 2 ^ 22 + pow2 (-149)) ≤ cfg.high.val) (h : filteredResponses cfg k t0 (pre ++ rs) = .ok os) : ∀ o ∈ os, o = false := by
  have hk1 : Fl.le k (Arith.ofRat 1) = false := by
    rw [ofRat_one, Bool.eq_false_iff, ne_eq, le_iff hkf rfl]
    change ¬ k.val ≤ 1
    linarith
  have hlen : (2 : Rat) ≤ pre.length := hk2.trans hfull
  have hne : pre ≠ [] := by
    rintro rfl
    norm_num at hlen
  have hB0 : 0 ≤ B := by
    obtain ⟨r, l, rfl⟩ := List.exists_cons_of_ne_nil hne
    exact (abs_nonneg _).trans (hall r (by simp)).2.2
  have hT : ∀ r ∈ pre ++ rs, Tame r.2 ∧ |r.2.val| ≤ B := fun r hr => ⟨⟨(hall r hr).1, (hall r hr).2.1, (hall r hr).2.2.trans hB⟩, (hall r hr).2.2⟩
  have he := averageError_nonneg hB0
  have hc0 : c ≤ cfg.high.val := by
    have := reach_mono (by linarith : 1 ≤ k.val) hcx (Nat.zero_le m)
    have e : reach k.val c x 0 = c := by simp [reach]
    rw [e] at this
    have h1 : 0 ≤ (m : Rat) * averageError B := by positivity
    unfold reach at this
    unfold averageError at h1
    linarith
  refine responses_off hmax ?_ h
  intro r hr
  rw [averages_append] at hr
  have key : r.2.fin = true ∧ r.2.val ≤ cfg.high.val := by
    rcases List.mem_append.mp hr with hr | hr
    · obtain ⟨n, hn, e⟩ := averages_mem pre _ hr
      have hne' : (pre.map Prod.snd).take (n + 1) ≠ [] := by
        intro h0
        have := congrArg List.length h0
        simp at this
        subst this
        simp at hn
      obtain ⟨g1, -, g3⟩ := full_frame (σ := 1) (B := B) (C := c) (Or.inl rfl) hk hk1 hne' (fun y hy => by
        obtain ⟨r', hr', rfl⟩ := List.mem_map.mp (List.mem_of_mem_take hy)
        have := hT r' (List.mem_append_left _ hr')
        exact ⟨this.1, this.2, by rw [one_mul]; exact hpre r' hr'⟩)
      rw [e]
      exact ⟨g1.2.2.1, by linarith⟩
    · obtain ⟨g1, g2, g3⟩ := full_frame (σ := 1) (B := B) (C := c) (Or.inl rfl) hk hk1 (xs := pre.map Prod.snd) (by simpa using hne) (fun y hy => by
        obtain ⟨r', hr', rfl⟩ := List.mem_map.mp hy
        have := hT r' (List.mem_append_left _ hr')
        exact ⟨this.1, this.2, by rw [one_mul]; exact hpre r' hr'⟩)
      rw [List.length_map] at g1
      have hp : 1 ≤ pre.length := List.length_pos_of_ne_nil hne
      have := spike_bound_fl (σ := 1) (Or.inl rfl) hk hkf hk2 hk24 hcx m rs (j := 0) g1 (by rw [Nat.cast_sub hp]; push_cast; linarith) g2 (by simpa [reach] using g3)
        (fun r hr => ⟨(hT r (List.mem_append_right _ hr)).1, (hT r (List.mem_append_right _ hr)).2, by rw [one_mul]; exact hrs r hr⟩) (by simpa using hm) r hr
      rw [one_mul] at this
      exact ⟨this.1, this.2.trans hreach⟩
  show Fl.lt cfg.high r.2 = false
  rw [Bool.eq_false_iff, ne_eq, lt_iff hhigh key.1]
  linarith [key.2]

/-- **C156 (partial)**, drop-outs in single precision. -/
theorem C156_dropouts_float_partial {cfg : LatchConfig Fl} {k : Fl} {B c x : Rat} {t0 : Int} {pre rs : List (Int × Fl)} {os : List Bool} {m : Nat} (hmax : cfg.maxOn = 0) (hlow : cfg.low.fin = true)
    (hk : k.Ok) (hkf : k.fin = true) (hk2 : 2 ≤ k.val) (hk24 : k.val ≤ 2 ^ 24) (hcx : x ≤ c) (hB : B ≤ halfMax) (hall : ∀ r ∈ pre ++ rs, r.2.fin = true ∧ r.2.Ok ∧ |r.2.val| ≤ B)
    (hfull : k.val ≤ pre.length) (hpre : ∀ r ∈ pre, c ≤ r.2.val) (hrs : ∀ r ∈ rs, x ≤ r.2.val) (hm : rs.countP (fun r => decide (r.2.val < c)) ≤ m)
    (hreach : cfg.low.val ≤ x + (c - x) * (1 - 1 / k.val) ^ m - m * (B / 2 ^ 22 + pow2 (-149))) (h : filteredResponses cfg k t0 (pre ++ rs) = .ok os)
    (hon : (os.take pre.length).getLast? = some true) : ∀ o ∈ os.drop pre.length, o = true := by
  have hk1 : Fl.le k (Arith.ofRat 1) = false := by
    rw [ofRat_one, Bool.eq_false_iff, ne_eq, le_iff hkf rfl]
    change ¬ k.val ≤ 1
    linarith
  have hlen : (2 : Rat) ≤ pre.length := hk2.trans hfull
  have hne : pre ≠ [] := by
    rintro rfl
    norm_num at hlen
  have hT : ∀ r ∈ pre ++ rs, Tame r.2 ∧ |r.2.val| ≤ B := fun r hr => ⟨⟨(hall r hr).1, (hall r hr).2.1, (hall r hr).2.2.trans hB⟩, (hall r hr).2.2⟩
  unfold filteredResponses responses at h
  rw [averages_append] at h
  obtain ⟨l, hl0, h⟩ := res_bind h
  rw [run_append] at h
  obtain ⟨⟨os', l'⟩, h2, h⟩ := res_bind h
  cases h
  obtain ⟨⟨os₁, l₁⟩, h1, h2⟩ := res_bind h2
  obtain ⟨⟨os₂, l₂⟩, h3, h2⟩ := res_bind h2
  cases h2
  obtain ⟨e1, e2⟩ := run_length _ h1
  rw [averages_length] at e1
  simp only [← e1, List.take_left', List.drop_left'] at hon ⊢
  have hl1 : l₁.on = true := by
    rw [← e2]
    cases os₁ with
    | nil => cases hon
    | cons o os₁ =>
      rw [List.getLast_cons (by simp)]
      rw [List.getLast?_eq_some_getLast (by simp)] at hon
      exact Option.some.inj hon
  refine (stays_on hmax _ hl1 ?_ h3).1
  intro r hr
  obtain ⟨g1, g2, g3⟩ := full_frame (σ := -1) (B := B) (C := -c) (Or.inr rfl) hk hk1 (xs := pre.map Prod.snd) (by simpa using hne) (fun y hy => by
    obtain ⟨r', hr', rfl⟩ := List.mem_map.mp hy
    have h1 := hT r' (List.mem_append_left _ hr')
    have := hpre r' hr'
    exact ⟨h1.1, h1.2, by linarith⟩)
  rw [List.length_map] at g1
  have hp : 1 ≤ pre.length := List.length_pos_of_ne_nil hne
  have := spike_bound_fl (σ := -1) (Or.inr rfl) hk hkf hk2 hk24 (by linarith : -c ≤ -x) m rs (j := 0) g1 (by rw [Nat.cast_sub hp]; push_cast; linarith) g2 (by simpa [reach] using g3)
    (fun r hr => ⟨(hT r (List.mem_append_right _ hr)).1, (hT r (List.mem_append_right _ hr)).2, by have := hrs r hr; linarith⟩)
    (by
      have e : (fun r : Int × Fl => decide (-c < -1 * r.2.val)) = fun r => decide (r.2.val < c) := by
        funext r
        congr 1
        rw [neg_one_mul, neg_lt_neg_iff]
      rw [e]; simpa using hm) r hr
  have h4 := this.2
  unfold reach averageError at h4
  show Fl.lt r.2 cfg.low = false
  rw [Bool.eq_false_iff, ne_eq, lt_iff this.1 hlow]
  linarith

/-- With a frame of 10, at 20.1 for a frame, two spikes of 60 stay below the threshold 30, in single precision, and three do not. -/
example : let k := Fl.ofRat 10
    (60 - (60 - 21) * (1 - 1 / k.val) ^ 2 + (2 : Nat) * (60 / 2 ^ 22 + pow2 (-149)) ≤ (Fl.ofRat 30).val) ∧
    filteredResponses { high := Fl.ofRat 30, low := Fl.ofRat 10 : LatchConfig Fl } k 0 (List.replicate 10 (0, Fl.ofRat (201 / 10)) ++ [(1, Fl.ofRat 60), (2, Fl.ofRat 60), (3, Fl.ofRat 20)]) =
      .ok (List.replicate 13 false) ∧
    filteredResponses { high := Fl.ofRat 30, low := Fl.ofRat 10 : LatchConfig Fl } k 0 (List.replicate 10 (0, Fl.ofRat (201 / 10)) ++ [(1, Fl.ofRat 60), (2, Fl.ofRat 60), (3, Fl.ofRat 60)]) =
      .ok (List.replicate 12 false ++ [true]) := by decide +kernel

end Spine
