import Verif.Proofs.Ewma
import Verif.Proofs.Band
/-!
# Properties of the filters: C48–C51, C82
-/

namespace Spine

/-! ## C48: EWMA -/

section Average
open Ewma

/-- C48 in single precision, for every frame length above 1 and samples of at most half the largest float: from a new filter or a
`reset_to` on, the value is never below all samples nor above all samples. Missing: a frame length of at most 1
(`C48_one_counterexample`, `C48_short_counterexample`) and samples so large that their difference overflows
(`C48_overflow_counterexample`). -/
theorem C48_range_partial {k v0 : Fl} (s0 : Ewma Fl) (hk : k.Ok) (hk1 : Fl.le k (Arith.ofRat 1) = false) {xs : List Fl} (hne : xs ≠ [])
    (hx : ∀ x ∈ xs, x.fin = true ∧ x.Ok ∧ |x.val| ≤ halfMax) :
    ((s0.reset v0).samples k xs).value.fin = true ∧
      (∃ a ∈ xs, Fl.le a ((s0.reset v0).samples k xs).value = true) ∧ (∃ b ∈ xs, Fl.le ((s0.reset v0).samples k xs).value b = true) := by
  obtain ⟨lo, hlo, hlo'⟩ : ∃ a ∈ xs, ∀ x ∈ xs, a.val ≤ x.val := exists_least Fl.val xs hne
  obtain ⟨hi, hhi, hhi'⟩ : ∃ a ∈ xs, ∀ x ∈ xs, x.val ≤ a.val := by
    obtain ⟨a, ha, h⟩ := exists_least (fun x => -Fl.val x) xs hne
    exact ⟨a, ha, fun x hx => neg_le_neg_iff.mp (h x hx)⟩
  obtain ⟨x, xs', rfl⟩ := List.exists_cons_of_ne_nil hne
  have e : (s0.reset v0).sample k x = ⟨.num false 1, x⟩ := by
    have h1 : (Arith.add fzero (Arith.ofRat 1) : Fl) = .num false 1 := by decide +kernel
    have h2 : feq (fzero : Fl) fzero = true := by decide +kernel
    simp only [sample, Ewma.reset, h2, if_true, h1]
  have h := samples_between hk hk1 (lo := lo.val) (hi := hi.val) xs' ⟨.num false 1, x⟩
    ⟨rfl, ⟨by norm_num, by decide +kernel, by decide +kernel⟩, by norm_num [Fl.val], by norm_num [Fl.val]⟩
    (hx x List.mem_cons_self) (hlo' x List.mem_cons_self) (hhi' x List.mem_cons_self)
    (fun y hy => ⟨hx y (List.mem_cons_of_mem _ hy), hlo' y (List.mem_cons_of_mem _ hy), hhi' y (List.mem_cons_of_mem _ hy)⟩)
  rw [← e] at h
  exact ⟨h.1.1, ⟨lo, hlo, (Fl.le_iff (hx lo hlo).1 h.1.1).mpr h.2.1⟩, ⟨hi, hhi, (Fl.le_iff h.1.1 (hx hi hhi).1).mpr h.2.2⟩⟩

/-- A filter with a frame of 10 on the samples 1, 2 and 4: the value is 7/3 rounded. -/
example : ((Ewma.create.samples (Fl.ofRat 10) [Fl.ofRat 1, Fl.ofRat 2, Fl.ofRat 4]).value : Fl) = .num false (9786709 / 4194304) := by decide +kernel

example : Fl.le (Fl.ofRat 10) (Arith.ofRat 1) = false ∧ |(Fl.ofRat (10 ^ 38)).val| ≤ halfMax := by decide +kernel

/-- C48 is false for a frame of length 1: samples -16777216 and 3 give 4. -/
theorem C48_one_counterexample :
    ((Ewma.create.samples (Fl.ofRat 1) [Fl.ofRat (-16777216), Fl.ofRat 3]).value : Fl) = .num false 4 := by decide +kernel

/-- C48 is false for shorter frames, even in exact arithmetic: samples 0 and 1 give 2 with a frame of one half. -/
theorem C48_short_counterexample : ((Ewma.create.samples (1 / 2 : Rat) [0, 1]).value : Rat) = 2 := by decide +kernel

/-- C48 is false for large samples: with a frame of 10, -3·10^38 and 3·10^38 give infinity. -/
theorem C48_overflow_counterexample :
    ((Ewma.create.samples (Fl.ofRat 10) [Fl.ofRat (-3 * 10 ^ 38), Fl.ofRat (3 * 10 ^ 38)]).value : Fl) = .inf false := by decide +kernel

/-! ## C82: what the average is -/

theorem mean_run {k : Rat} (xs : List Rat) : ∀ s : Ewma Rat, 0 < s.n → s.n + xs.length ≤ k →
    (s.samples k xs).n = s.n + xs.length ∧ (s.samples k xs).value * (s.n + xs.length) = s.value * s.n + xs.sum := by
  induction xs with
  | nil => intro s _ _; simp [samples]
  | cons x xs ih =>
    intro s hn hk
    simp only [List.length_cons, Nat.cast_add, Nat.cast_one] at hk
    have hl : (0 : Rat) ≤ xs.length := Nat.cast_nonneg _
    have h0 : feq s.n fzero = false := by
      simp only [feq, fzero, Arith.le, Arith.ofRat, Bool.and_eq_false_iff]
      exact Or.inl (decide_eq_false (not_le.mpr hn))
    have hm : fmin (s.n + 1) k = s.n + 1 := by
      simp only [fmin, Arith.lt, decide_eq_true_eq]
      rw [if_neg (by linarith)]
    have e : s.sample k x = ⟨s.n + 1, s.value + (x - s.value) / (s.n + 1)⟩ := by
      simp only [sample, h0, Bool.false_eq_true, if_false, Arith.add, Arith.sub, Arith.div, Arith.ofRat, hm]
    have h := ih (s.sample k x) (by rw [e]; simp only; linarith) (by rw [e]; simp only; linarith)
    change ((s.sample k x).samples k xs).n = _ ∧ ((s.sample k x).samples k xs).value * _ = _
    rw [e] at h ⊢
    simp only at h
    simp only [List.length_cons, Nat.cast_add, Nat.cast_one, List.sum_cons]
    refine ⟨by rw [h.1]; ring, ?_⟩
    have hne : s.n + 1 ≠ 0 := by linarith
    have h2 : (s.value + (x - s.value) / (s.n + 1)) * (s.n + 1) = s.value * s.n + x := by field_simp; ring
    rw [show s.n + ((xs.length : Rat) + 1) = s.n + 1 + xs.length by ring, h.2, h2]
    ring

/-- C82 in exact arithmetic: as long as no more samples have come than the frame is long, the value is their mean. -/
theorem C82_mean {k v0 : Rat} (s0 : Ewma Rat) {xs : List Rat} (hne : xs ≠ []) (hk : (xs.length : Rat) ≤ k) :
    ((s0.reset v0).samples k xs).value = xs.sum / xs.length := by
  obtain ⟨x, xs', rfl⟩ := List.exists_cons_of_ne_nil hne
  have e : (s0.reset v0).sample k x = ⟨1, x⟩ := by simp [sample, Ewma.reset, feq, fzero, Arith.le, Arith.ofRat, Arith.add]
  simp only [List.length_cons, Nat.cast_add, Nat.cast_one] at hk
  have h := mean_run (k := k) xs' ⟨1, x⟩ (by norm_num) (by simp only; linarith)
  rw [← e] at h
  change ((s0.reset v0).sample k x |>.samples k xs').value = _
  have hl : (0 : Rat) ≤ xs'.length := Nat.cast_nonneg _
  rw [eq_div_iff (by simp only [List.length_cons, Nat.cast_add, Nat.cast_one]; linarith)]
  simp only [List.length_cons, Nat.cast_add, Nat.cast_one, List.sum_cons]
  have := h.2
  rw [e] at this ⊢
  simp only at this
  rw [add_comm (xs'.length : Rat), this]
  ring

/-- C82: from then on, a sample has the weight `1/k` and everything before it the rest. -/
theorem C82_weight {k : Rat} {s : Ewma Rat} {x : Rat} (hn : 0 < s.n) (hk : 0 < k) (hfull : k ≤ s.n + 1) :
    (s.sample k x).value = (1 - 1 / k) * s.value + (1 / k) * x := by
  have h0 : feq s.n fzero = false := by
    simp only [feq, fzero, Arith.le, Arith.ofRat, Bool.and_eq_false_iff]
    exact Or.inl (decide_eq_false (not_le.mpr hn))
  have hm : fmin (s.n + 1) k = k := by
    simp only [fmin, Arith.lt, decide_eq_true_eq]
    split
    · rfl
    · next h => exact le_antisymm (not_lt.mp h) hfull
  simp only [sample, h0, Bool.false_eq_true, if_false, Arith.add, Arith.sub, Arith.div, Arith.ofRat, hm]
  field_simp
  ring

example : ((Ewma.create.samples (3 : Rat) [1, 2, 6]).value, (Ewma.create.samples (3 : Rat) [1, 2, 6, 9]).value) = ((3 : Rat), 5) := by decide +kernel

end Average

/-! ## C49: BandPass -/

section Band
open Band
variable {F : Type} [Arith F]

/-- C49: a sample in the band is accepted. -/
theorem C49_accept {c : BandCfg F} {s : Band F} {x : F} (h : Reachable c s) (hv : feq s.value unset = false) (hb : inBand c s.value x = true) :
    ∃ s', s.sample c x = .ok (true, s') ∧ s'.value = x := by
  obtain ⟨s', e, v, -⟩ := (sample_cases (inv_reachable h) x).1 (by rwa [base, hv])
  exact ⟨s', e, v⟩

/-- C49: of any `limit + 1` samples in a row, at least one is accepted or makes a filter throw that is configured to. -/
theorem C49_limit {c : BandCfg F} {s s' : Band F} {xs : List F} {os : List (Bool × F)} (h : Reachable c s) (hlen : c.limit < xs.length) (hne : xs ≠ [])
    (hr : s.samples c xs = .ok (os, s')) :
    ∃ (i : Nat) (x : F), xs[i]? = some x ∧ (os[i]? = some (true, x) ∨ (c.throws = true ∧ ∃ v, os[i]? = some (false, v))) := by
  have hi := inv_reachable h
  rcases (samples_count xs s s' os hi hr).2 with h1 | h1 | h1
  · exact h1
  · have := hi.rejections
    omega
  · exact absurd h1 hne

/-- C49: after a sample in the band, up to `limit` samples outside of it are rejected: the value stays, and nothing is thrown.
Missing: the same after a forced acceptance, and before the first sample in the band (see the counterexamples). -/
theorem C49_reject_partial {c : BandCfg F} {s : Band F} {x : F} {xs : List F} (h : Reachable c s) (hv : feq s.value unset = false) (hb : inBand c s.value x = true)
    (hx : feq x unset = false) (hout : ∀ y ∈ xs, inBand c x y = false) (hlen : xs.length ≤ c.limit) (hc : c.limit < 2 ^ 31) :
    ∃ s', s.samples c (x :: xs) = .ok ((true, x) :: List.replicate xs.length (true, x), s') ∧ s'.value = x := by
  obtain ⟨s1, e, v, r, hi⟩ := (sample_cases (inv_reachable h) x).1 (by rwa [base, hv])
  obtain ⟨s', e', v'⟩ := samples_outliers hx xs s1 hi v hout (by rw [r]; omega) hc
  refine ⟨s', ?_, v'⟩
  rw [samples, e, res_bind_ok]
  simp only [e', res_bind_ok, v]
  rfl

/-- A relative band of width 10 with a limit of 2. -/
def narrow : BandCfg Rat := { relative := true, width := 10, offset := 0, limit := 2, throws := false }

example : ((Band.create narrow).samples narrow [0, 5, 100, 100, 7, 100, 100, 100, 105]).map Prod.fst =
    .ok [(true, 0), (true, 5), (true, 5), (true, 5), (true, 7), (true, 7), (true, 7), (true, 100), (true, 105)] := by decide +kernel

/-- C49 is false after a forced acceptance: the next outlier is accepted at once. -/
theorem C49_forced_counterexample : ((Band.create narrow).samples narrow [0, 100, 100, 100, 500, -500]).map Prod.fst =
    .ok [(true, 0), (true, 0), (true, 0), (true, 100), (true, 500), (true, -500)] := by decide +kernel

/-- C49 is false for the first sample in an absolute band: it becomes the value although it is outside. -/
theorem C49_absolute_counterexample : ((Band.create { narrow with relative := false }).samples { narrow with relative := false } [1000, 2000]).map Prod.fst =
    .ok [(true, 1000), (true, 1000)] := by decide +kernel

/-- C49 is false after a value of -789.123456789, which stands for "no value yet". -/
theorem C49_sentinel_counterexample : ((Band.create narrow).samples narrow [-789123456789 / 1000000000, 1000000]).map Prod.fst =
    .ok [(true, -789123456789 / 1000000000), (true, 1000000)] := by decide +kernel

theorem nan_stuck {c : BandCfg Fl} (hr : c.relative = true) (ht : c.throws = true) (xs : List Fl) : ∀ (s s' : Band Fl) (os : List (Bool × Fl)), Inv c s → s.value = .nan →
    s.samples c xs = .ok (os, s') → ∀ o ∈ os, o.2 = .nan := by
  induction xs with
  | nil => intro s s' os _ _ h; cases h; simp
  | cons x xs ih =>
    intro s s' os hi hs h
    simp only [samples] at h
    obtain ⟨⟨f, t⟩, h1, h⟩ := res_bind h
    obtain ⟨⟨os', t'⟩, h2, h⟩ := res_bind h
    cases h
    have hbase : s.base x = .nan := by rw [base, hs]; rfl
    have hb : inBand c (s.base x) x = false := by
      have e1 : Arith.le (Arith.sub (Arith.add Fl.nan c.offset) c.width) x = false := by
        have e : Arith.add Fl.nan c.offset = Fl.nan := by cases c.offset <;> rfl
        have e' : Arith.sub Fl.nan c.width = Fl.nan := by cases c.width <;> rfl
        rw [e, e']; cases x <;> rfl
      rw [hbase, inBand, hr]
      simp only [if_true]
      rw [e1, Bool.false_and]
    obtain ⟨a, b⟩ := (sample_cases hi x).2 hb
    have hr' : s.rejections + 1 < 2 ^ 31 := by
      by_contra hc
      rw [a (by omega)] at h1; cases h1
    obtain ⟨t1, e, -, hit, v1⟩ := b hr'
    rw [if_pos (Or.inr ht), hbase] at v1
    rw [e] at h1
    cases h1
    intro o ho
    rcases List.mem_cons.mp ho with rfl | ho
    · exact v1
    · exact ih t t' os' hit v1 h2 o ho

/-- C49 is false after a first sample of NaN with the default configuration (a relative band that throws): no later sample is ever
accepted. -/
theorem C49_nan_counterexample {c : BandCfg Fl} (hr : c.relative = true) (ht : c.throws = true) {xs : List Fl} {os : List (Bool × Fl)} {s' : Band Fl}
    (h : (Band.create c).samples c (.nan :: xs) = .ok (os, s')) : ∀ o ∈ os, o.2 = .nan := by
  simp only [samples] at h
  obtain ⟨⟨f, t⟩, h1, h⟩ := res_bind h
  obtain ⟨⟨os', t'⟩, h2, h⟩ := res_bind h
  cases h
  have hi := inv_create c
  have hbase : (create c).base Fl.nan = .nan := by
    have : feq (create c).value unset = true := by
      change feq (unset : Fl) unset = true
      decide +kernel
    rw [base, this]; rfl
  have hb : inBand c ((create c).base Fl.nan) Fl.nan = false := by
    have : ∀ z : Fl, Arith.le z Fl.nan = false := by intro z; cases z <;> rfl
    rw [inBand, this, Bool.false_and]
  obtain ⟨a, b⟩ := (sample_cases hi Fl.nan).2 hb
  obtain ⟨t1, e, -, hit, v1⟩ := b (by change (0 : Int) + 1 < 2 ^ 31; norm_num)
  rw [if_pos (Or.inr ht), hbase] at v1
  rw [e] at h1
  cases h1
  intro o ho
  rcases List.mem_cons.mp ho with rfl | ho
  · exact v1
  · exact nan_stuck hr ht xs t t' os' hit v1 h2 o ho

/-- The default band: 10^1.01 is a little above 10. -/
example : ((Band.create { relative := true, width := Fl.ofRat (1023 / 100), offset := Fl.ofRat 0, limit := 10, throws := true }).samples
    { relative := true, width := Fl.ofRat (1023 / 100), offset := Fl.ofRat 0, limit := 10, throws := true } (Fl.nan :: List.replicate 11 (Fl.ofRat 20))).map Prod.fst =
    .ok (List.replicate 10 (true, .nan) ++ List.replicate 2 (false, .nan)) := by decide +kernel

theorem overflow_run {c : BandCfg Rat} {v x : Rat} (ht : c.throws = true) (hv : feq v unset = false) (hx : inBand c v x = false) (n : Nat) : ∀ s : Band Rat, Inv c s → s.value = v →
    2 ^ 31 ≤ s.rejections + n → s.rejections < 2 ^ 31 → s.samples c (List.replicate n x) = .error .ub := by
  induction n with
  | zero => intro s _ _ h h'; simp at h; omega
  | succ n ih =>
    intro s hi hs h h'
    have hbase : s.base x = v := by rw [base, hs, hv]; rfl
    obtain ⟨a, b⟩ := (sample_cases hi x).2 (by rw [hbase]; exact hx)
    rw [List.replicate_succ, samples]
    by_cases hr : s.rejections + 1 < 2 ^ 31
    · obtain ⟨t, e, r, hit, vt⟩ := b hr
      rw [if_pos (Or.inr ht), hbase] at vt
      rw [e, res_bind_ok]
      simp only
      rw [ih t hit vt (by rw [r]; push_cast at h; omega) (by rw [r]; exact hr)]
      rfl
    · rw [a (by omega)]
      rfl

/-- The count of rejections overflows: a sensor that stays out of the band for 2^31 samples leads to undefined behaviour. -/
theorem C49_overflow_counterexample : (Band.create { narrow with throws := true }).samples { narrow with throws := true } (0 :: List.replicate (2 ^ 31) 100) = .error .ub := by
  rw [samples]
  have e : (Band.create { narrow with throws := true }).sample { narrow with throws := true } 0 = .ok (true, ⟨0, -10, 10, 0⟩) := by decide +kernel
  rw [e, res_bind_ok]
  simp only
  rw [overflow_run (v := 0) rfl (by decide +kernel) (by decide +kernel) (2 ^ 31) ⟨0, -10, 10, 0⟩ ⟨by decide, fun h => by cases h⟩ rfl (by norm_num) (by norm_num)]
  rfl

end Band

/-! ## C50: MappedRange -/

theorem map_rat {c : MapCfg Rat} (hin : c.inLo < c.inHi) (x : Rat) :
    c.map x = .ok (if c.throws = true ∧ (x < c.inLo ∨ c.inHi < x) then none
      else some (c.outLo + (max c.inLo (min c.inHi x) - c.inLo) / (c.inHi - c.inLo) * (c.outHi - c.outLo))) := by
  simp only [MapCfg.map, fclamp, Arith.lt, Arith.add, Arith.sub, Arith.mul, Arith.div, Bool.or_eq_true, decide_eq_true_eq]
  rw [if_neg (not_lt.mpr hin.le)]
  by_cases h1 : x < c.inLo
  · rw [if_pos (Or.inl h1)]
    cases c.throws
    · simp [h1, min_eq_right (h1.trans hin).le, max_eq_left h1.le]
    · simp [h1]
  · by_cases h2 : c.inHi < x
    · rw [if_pos (Or.inr h2)]
      cases c.throws
      · simp [h1, h2, min_eq_left h2.le, max_eq_right hin.le]
      · simp [h2]
    · rw [if_neg (by simp [h1, h2])]
      simp [h1, h2, min_eq_right (not_lt.mp h2), max_eq_right (not_lt.mp h1)]

/-- C50: in exact arithmetic, every sample inside the input range is mapped linearly onto the output range. -/
theorem C50_linear {c : MapCfg Rat} (hin : c.inLo < c.inHi) {x : Rat} (h1 : c.inLo ≤ x) (h2 : x ≤ c.inHi) :
    ∃ y, c.map x = .ok (some y) ∧ (y - c.outLo) * (c.inHi - c.inLo) = (x - c.inLo) * (c.outHi - c.outLo) := by
  refine ⟨_, by rw [map_rat hin, if_neg (by rintro ⟨-, h | h⟩ <;> linarith)], ?_⟩
  rw [min_eq_right h2, max_eq_right h1]
  have : c.inHi - c.inLo ≠ 0 := by linarith
  field_simp
  ring

/-- C50: the limits of the input range map to the limits of the output range. -/
theorem C50_limits {c : MapCfg Rat} (hin : c.inLo < c.inHi) : c.map c.inLo = .ok (some c.outLo) ∧ c.map c.inHi = .ok (some c.outHi) := by
  have : c.inHi - c.inLo ≠ 0 := by linarith
  rw [map_rat hin, map_rat hin, if_neg (by rintro ⟨-, h | h⟩ <;> linarith), if_neg (by rintro ⟨-, h | h⟩ <;> linarith)]
  constructor
  · rw [min_eq_right hin.le, max_self]; simp
  · rw [min_self, max_eq_right hin.le, div_self this]; simp

/-- C50: every output is in the output range, whichever way round that is, also for samples outside the input range. -/
theorem C50_range {c : MapCfg Rat} (hin : c.inLo < c.inHi) {x y : Rat} (h : c.map x = .ok (some y)) :
    min c.outLo c.outHi ≤ y ∧ y ≤ max c.outLo c.outHi := by
  rw [map_rat hin] at h
  split at h <;> cases h
  have h0 : 0 < c.inHi - c.inLo := by linarith
  have a : 0 ≤ (max c.inLo (min c.inHi x) - c.inLo) / (c.inHi - c.inLo) := div_nonneg (by linarith [le_max_left c.inLo (min c.inHi x)]) h0.le
  have b : (max c.inLo (min c.inHi x) - c.inLo) / (c.inHi - c.inLo) ≤ 1 := by
    rw [div_le_one h0]
    have := max_le hin.le (min_le_left c.inHi x)
    linarith
  generalize (max c.inLo (min c.inHi x) - c.inLo) / (c.inHi - c.inLo) = q at a b
  rcases le_total c.outLo c.outHi with h | h
  · rw [min_eq_left h, max_eq_right h]; constructor <;> nlinarith
  · rw [min_eq_right h, max_eq_left h]; constructor <;> nlinarith

/-- C50: the mapping is monotone, also for samples outside the input range. -/
theorem C50_monotone {c : MapCfg Rat} (hin : c.inLo < c.inHi) (hout : c.outLo ≤ c.outHi) {x x' y y' : Rat} (hx : x ≤ x') (h : c.map x = .ok (some y))
    (h' : c.map x' = .ok (some y')) : y ≤ y' := by
  rw [map_rat hin] at h h'
  split at h <;> cases h
  split at h' <;> cases h'
  have h0 : 0 < c.inHi - c.inLo := by linarith
  have hm : max c.inLo (min c.inHi x) ≤ max c.inLo (min c.inHi x') := max_le_max (le_refl _) (min_le_min (le_refl _) hx)
  have hd : (max c.inLo (min c.inHi x) - c.inLo) / (c.inHi - c.inLo) ≤ (max c.inLo (min c.inHi x') - c.inLo) / (c.inHi - c.inLo) :=
    div_le_div_of_nonneg_right (by linarith) h0.le
  have := mul_le_mul_of_nonneg_right hd (show 0 ≤ c.outHi - c.outLo by linarith)
  linarith

/-- C50: with `throw_for_value_out_of_range`, exactly the samples outside the input range throw; without, none does. -/
theorem C50_throws {c : MapCfg Rat} (hin : c.inLo < c.inHi) (x : Rat) : c.map x = .ok none ↔ c.throws = true ∧ (x < c.inLo ∨ c.inHi < x) := by
  rw [map_rat hin]
  split <;> simp_all

/-- Percentages of the range from 2 to 4. -/
def percent : MapCfg Rat := { inLo := 2, inHi := 4, outLo := 0, outHi := 100, throws := false }

example : [1, 2, 3, 7 / 2, 5].map (fun x => percent.map x) = [0, 0, 50, 75, 100].map (fun y => Except.ok (some y)) := by decide +kernel

section
open F32 Fl

/-- What `MappedRange` computes in single precision from a sample inside the input range. -/
theorem scale_ieee {c : MapCfg Fl} {x : Fl} (h : ∀ z ∈ [c.inLo, c.inHi, c.outLo, c.outHi], z.fin = true ∧ z.Ok ∧ |z.val| ≤ pow2 125) (hx : x.fin = true) (hlt : c.inLo.val < c.inHi.val)
    (hout : c.outLo.val ≤ c.outHi.val) (h1 : c.inLo.val ≤ x.val) (h2 : x.val ≤ c.inHi.val) :
    (Fl.add c.outLo (Fl.mul (Fl.div (Fl.sub x c.inLo) (Fl.sub c.inHi c.inLo)) (Fl.sub c.outHi c.outLo))).fin = true ∧
    (Fl.add c.outLo (Fl.mul (Fl.div (Fl.sub x c.inLo) (Fl.sub c.inHi c.inLo)) (Fl.sub c.outHi c.outLo))).val =
      rnd (c.outLo.val + rnd (rnd (rnd (x.val - c.inLo.val) / rnd (c.inHi.val - c.inLo.val)) * rnd (c.outHi.val - c.outLo.val))) ∧
    0 < rnd (c.inHi.val - c.inLo.val) := by
  obtain ⟨a1, a2, a3⟩ := h c.inLo (by simp)
  obtain ⟨b1, b2, b3⟩ := h c.inHi (by simp)
  obtain ⟨c1, c2, c3⟩ := h c.outLo (by simp)
  obtain ⟨d1, d2, d3⟩ := h c.outHi (by simp)
  rw [abs_le] at a3 b3 c3 d3
  have e126 : pow2 126 = 2 * pow2 125 := pow2_succ 125
  have e127 : pow2 127 = 2 * pow2 126 := pow2_succ 126
  have r126 : rnd (pow2 126) = pow2 126 := by
    have := rnd_exact (m := 1) (e := 126) (by norm_num) (by norm_num)
    simpa using this
  have r127 : rnd (pow2 127) = pow2 127 := by
    have := rnd_exact (m := 1) (e := 127) (by norm_num) (by norm_num)
    simpa using this
  have p125 := pow2_pos 125
  have l128 : pow2 127 < pow2 128 := pow2_lt (by norm_num)
  have bound : ∀ q : Rat, 0 ≤ q → q ≤ pow2 126 → 0 ≤ rnd q ∧ rnd q ≤ pow2 126 := by
    intro q h0 h1
    have := rnd_mono h1
    rw [r126] at this
    exact ⟨rnd_nonneg h0, this⟩
  obtain ⟨n0, n1⟩ := bound (x.val - c.inLo.val) (by linarith) (by linarith)
  obtain ⟨m0, m1⟩ := bound (c.inHi.val - c.inLo.val) (by linarith) (by linarith)
  obtain ⟨w0, w1⟩ := bound (c.outHi.val - c.outLo.val) (by linarith) (by linarith)
  have hpos : 0 < rnd (c.inHi.val - c.inLo.val) := by
    obtain ⟨p, hp⟩ := grid_of_rnd a2.rnd_val
    obtain ⟨q, hq⟩ := grid_of_rnd b2.rnd_val
    have hg := pow2_pos (-149)
    have hpq : p < q := by
      have := hlt
      rw [hp, hq] at this
      exact_mod_cast lt_of_mul_lt_mul_right this hg.le
    have hge : pow2 (-149) ≤ c.inHi.val - c.inLo.val := by
      rw [hp, hq, ← sub_mul]
      have : (1 : Rat) ≤ (q : Rat) - p := by
        have : ((p + 1 : Int) : Rat) ≤ q := by exact_mod_cast hpq
        push_cast at this
        linarith
      nlinarith
    have hr : rnd (pow2 (-149)) = pow2 (-149) := by
      have := rnd_exact (m := 1) (e := -149) (by norm_num) (by norm_num)
      simpa using this
    have := rnd_mono hge
    rw [hr] at this
    linarith
  have u := sub_val hx a1 (by rw [abs_of_nonneg n0]; linarith)
  have v := sub_val b1 a1 (by rw [abs_of_nonneg m0]; linarith)
  have w := sub_val d1 c1 (by rw [abs_of_nonneg w0]; linarith)
  have q0 : 0 ≤ rnd (x.val - c.inLo.val) / rnd (c.inHi.val - c.inLo.val) := div_nonneg n0 m0
  have q1 : rnd (x.val - c.inLo.val) / rnd (c.inHi.val - c.inLo.val) ≤ 1 := by
    rw [div_le_one hpos]
    exact rnd_mono (by linarith)
  have rq0 := rnd_nonneg q0
  have rq1 : rnd (rnd (x.val - c.inLo.val) / rnd (c.inHi.val - c.inLo.val)) ≤ 1 := by
    have := rnd_mono q1
    rwa [show rnd 1 = 1 by decide +kernel] at this
  have one_lt : (1 : Rat) < pow2 128 := by decide +kernel
  have d := div_val u.1 v.1 (sub_ok _ _) (sub_ok _ _) (by rw [v.2]; exact hpos.ne') (by rw [u.2, v.2, abs_of_nonneg rq0]; linarith)
  rw [u.2, v.2] at d
  obtain ⟨t0, t1⟩ := bound _ (mul_nonneg rq0 w0) (show _ ≤ pow2 126 by
    refine (mul_le_mul_of_nonneg_right rq1 w0).trans ?_
    rw [one_mul]; exact w1)
  have m := mul_val d.1 w.1 (div_ok (sub_ok _ _) (sub_ok _ _)) (sub_ok _ _) (by rw [d.2, w.2, abs_of_nonneg t0]; linarith)
  rw [d.2, w.2] at m
  have s : |rnd (c.outLo.val + rnd (rnd (rnd (x.val - c.inLo.val) / rnd (c.inHi.val - c.inLo.val)) * rnd (c.outHi.val - c.outLo.val)))| < pow2 128 := by
    refine lt_of_le_of_lt (b := pow2 127) ?_ l128
    rw [abs_le]
    have x1 := rnd_mono (show c.outLo.val + rnd (rnd (rnd (x.val - c.inLo.val) / rnd (c.inHi.val - c.inLo.val)) * rnd (c.outHi.val - c.outLo.val)) ≤ pow2 127 by linarith)
    have x2 := rnd_mono (show -pow2 127 ≤ c.outLo.val + rnd (rnd (rnd (x.val - c.inLo.val) / rnd (c.inHi.val - c.inLo.val)) * rnd (c.outHi.val - c.outLo.val)) by linarith)
    rw [r127] at x1
    rw [rnd_neg, r127] at x2
    exact ⟨x2, x1⟩
  have z := add_val c1 m.1 (by rw [m.2]; exact s)
  rw [m.2] at z
  exact ⟨z.1, z.2, hpos⟩

/-- Samples outside the input range are treated like the nearest limit. -/
theorem map_ieee {c : MapCfg Fl} (g1 : c.inLo.fin = true) (g2 : c.inHi.fin = true) (hlt : c.inLo.val < c.inHi.val) (ht : c.throws = false) {x : Fl} (hx : x.fin = true) :
    ∃ z : Fl, z.fin = true ∧ z.val = max c.inLo.val (min c.inHi.val x.val) ∧ (z = x ∨ z = c.inLo ∨ z = c.inHi) ∧
      c.map x = .ok (some (Fl.add c.outLo (Fl.mul (Fl.div (Fl.sub z c.inLo) (Fl.sub c.inHi c.inLo)) (Fl.sub c.outHi c.outLo)))) := by
  have l1 : Arith.lt c.inHi c.inLo = false := by
    rw [Bool.eq_false_iff]; intro hc
    have := (lt_iff g2 g1).mp hc
    linarith
  by_cases k1 : x.val < c.inLo.val
  · have e1 : Arith.lt x c.inLo = true := (lt_iff hx g1).mpr k1
    refine ⟨c.inLo, g1, ?_, .inr (.inl rfl), ?_⟩
    · rw [min_eq_right (by linarith), max_eq_left k1.le]
    · simp only [MapCfg.map, e1, Bool.true_or, if_true, ht, Bool.false_eq_true, if_false, fclamp, l1, res_bind_ok]
      rfl
  · have e1 : Arith.lt x c.inLo = false := by rw [Bool.eq_false_iff]; intro hc; exact k1 ((lt_iff hx g1).mp hc)
    by_cases k2 : c.inHi.val < x.val
    · have e2 : Arith.lt c.inHi x = true := (lt_iff g2 hx).mpr k2
      refine ⟨c.inHi, g2, ?_, .inr (.inr rfl), ?_⟩
      · rw [min_eq_left k2.le, max_eq_right hlt.le]
      · simp only [MapCfg.map, e1, e2, Bool.or_true, if_true, ht, Bool.false_eq_true, if_false, fclamp, l1, res_bind_ok]
        rfl
    · have e2 : Arith.lt c.inHi x = false := by rw [Bool.eq_false_iff]; intro hc; exact k2 ((lt_iff g2 hx).mp hc)
      refine ⟨x, hx, ?_, .inl rfl, ?_⟩
      · rw [min_eq_right (not_lt.mp k2), max_eq_right (not_lt.mp k1)]
      · simp only [MapCfg.map, e1, e2, Bool.or_false, Bool.false_eq_true, if_false]
        rfl

/-- C50 in single precision, for limits of at most 2^125 and finite samples: the mapping is monotone, never goes below the output range,
and maps the lower limit to the lower limit. The upper limit is only met up to rounding (`C50_ieee_counterexample`). -/
theorem C50_ieee {c : MapCfg Fl} (h : ∀ z ∈ [c.inLo, c.inHi, c.outLo, c.outHi], z.fin = true ∧ z.Ok ∧ |z.val| ≤ pow2 125) (hlt : Fl.lt c.inLo c.inHi = true)
    (hout : Fl.le c.outLo c.outHi = true) (ht : c.throws = false) {x x' : Fl} (hx : x.fin = true) (hx' : x'.fin = true) (hle : Fl.le x x' = true) :
    ∃ y y', c.map x = .ok (some y) ∧ c.map x' = .ok (some y') ∧ Fl.le c.outLo y = true ∧ Fl.le y y' = true ∧ (Fl.le x c.inLo = true → y.val = c.outLo.val) := by
  have g1 := (h c.inLo (by simp)).1
  have g2 := (h c.inHi (by simp)).1
  have g3 := (h c.outLo (by simp)).1
  have g4 := (h c.outHi (by simp)).1
  rw [lt_iff g1 g2] at hlt
  rw [le_iff g3 g4] at hout
  rw [le_iff hx hx'] at hle
  have cut := fun x hx => map_ieee (c := c) g1 g2 hlt ht (x := x) hx
  obtain ⟨z, z1, z2, -, z3⟩ := cut x hx
  obtain ⟨z', z1', z2', -, z3'⟩ := cut x' hx'
  have r : ∀ x : Rat, c.inLo.val ≤ max c.inLo.val (min c.inHi.val x) ∧ max c.inLo.val (min c.inHi.val x) ≤ c.inHi.val :=
    fun x => ⟨le_max_left _ _, max_le hlt.le (min_le_left _ _)⟩
  obtain ⟨s1, s2, s3⟩ := scale_ieee h z1 hlt hout (by rw [z2]; exact (r _).1) (by rw [z2]; exact (r _).2)
  obtain ⟨s1', s2', -⟩ := scale_ieee h z1' hlt hout (by rw [z2']; exact (r _).1) (by rw [z2']; exact (r _).2)
  refine ⟨_, _, z3, z3', ?_, ?_, ?_⟩
  · rw [le_iff g3 s1, s2]
    have hw : 0 ≤ rnd (c.outHi.val - c.outLo.val) := rnd_nonneg (by linarith)
    have hn : 0 ≤ rnd (z.val - c.inLo.val) := rnd_nonneg (by rw [z2]; linarith [(r x.val).1])
    have := rnd_nonneg (mul_nonneg (rnd_nonneg (div_nonneg hn s3.le)) hw)
    have h2 := rnd_mono (show c.outLo.val ≤ c.outLo.val + rnd (rnd (rnd (z.val - c.inLo.val) / rnd (c.inHi.val - c.inLo.val)) * rnd (c.outHi.val - c.outLo.val)) by linarith)
    rwa [(h c.outLo (by simp)).2.1.rnd_val] at h2
  · rw [le_iff s1 s1', s2, s2']
    have hw : 0 ≤ rnd (c.outHi.val - c.outLo.val) := rnd_nonneg (by linarith)
    have hz : z.val ≤ z'.val := by rw [z2, z2']; exact max_le_max (le_refl _) (min_le_min (le_refl _) hle)
    apply rnd_mono
    apply add_le_add_right
    apply rnd_mono
    apply mul_le_mul_of_nonneg_right _ hw
    apply rnd_mono
    apply div_le_div_of_nonneg_right _ s3.le
    apply rnd_mono
    linarith
  · intro hxl
    rw [le_iff hx g1] at hxl
    have : z.val = c.inLo.val := by rw [z2, max_eq_left ((min_le_right _ _).trans hxl)]
    rw [s2, this, sub_self, F32.rnd_zero, zero_div, F32.rnd_zero, zero_mul, F32.rnd_zero, add_zero, (h c.outLo (by simp)).2.1.rnd_val]

example : MapCfg.map { inLo := Fl.ofRat (1 / 10), inHi := Fl.ofRat (9 / 10), outLo := Fl.ofRat 0, outHi := Fl.ofRat 100, throws := false } (Fl.ofRat (3 / 10)) =
    .ok (some (.num false (6553601 / 262144))) := by decide +kernel

end

/-- In single precision C50 is false: the upper limit maps to 4 instead of 3. -/
theorem C50_ieee_counterexample :
    (MapCfg.map { inLo := Fl.ofRat 0, inHi := Fl.ofRat 1, outLo := Fl.ofRat (-16777216), outHi := Fl.ofRat 3, throws := true } (Fl.ofRat 1)) = .ok (some (.num false 4)) := by
  decide +kernel

/-- A sample that is not a number is not out of range, and an empty input range gives no number either; an input range the wrong way
round is undefined. -/
theorem C50_nan_counterexample :
    (MapCfg.map { inLo := Fl.ofRat 0, inHi := Fl.ofRat 1, outLo := Fl.ofRat 0, outHi := Fl.ofRat 100, throws := true } .nan) = .ok (some .nan) ∧
    (MapCfg.map { inLo := Fl.ofRat 1, inHi := Fl.ofRat 1, outLo := Fl.ofRat 0, outHi := Fl.ofRat 100, throws := true } (Fl.ofRat 1)) = .ok (some .nan) ∧
    (MapCfg.map { inLo := Fl.ofRat 1, inHi := Fl.ofRat 0, outLo := Fl.ofRat 0, outHi := Fl.ofRat 100, throws := false } (Fl.ofRat 1)) = .error .ub := by
  decide +kernel

/-! ## C51: Invert and the stack -/

/-- C51: in exact arithmetic, inverting a sample of the range gives a value of the range as far from its upper end as the sample is from the lower one, and inverting
that gives the sample. -/
theorem C51_invert {b : Build} {lo hi x : Rat} (h1 : lo ≤ x) (h2 : x ≤ hi) :
    ∃ y, invert b lo hi x = .ok y ∧ lo ≤ y ∧ y ≤ hi ∧ hi - y = x - lo ∧ invert b lo hi y = .ok x := by
  have key : ∀ x : Rat, lo ≤ x → x ≤ hi → invert b lo hi x = .ok (hi - (x - lo)) := by
    intro x h1 h2
    simp only [invert, Arith.le, Arith.sub]
    rw [decide_eq_true h1, decide_eq_true h2]
    cases b <;> rfl
  refine ⟨_, key x h1 h2, by linarith, by linarith, by ring, ?_⟩
  rw [key _ (by linarith) (by linarith)]
  congr 1
  ring

example : (invert .debug (2 : Rat) 5 3, invert .debug (2 : Rat) 5 4) = (.ok 4, .ok 3) := by decide +kernel

/-- In single precision, inverting 10^-9 twice in the range from 0 to 1 gives 0. -/
theorem C51_invert_counterexample : (do
    let y ← invert .debug (Fl.ofRat 0) (Fl.ofRat 1) (Fl.ofRat (1 / 10 ^ 9))
    invert .debug (Fl.ofRat 0) (Fl.ofRat 1) y : Res Fl) = .ok (.num false 0) := by decide +kernel

/-- In single precision, inverting the upper limit of the range from 1 to 2^25 gives 0, which is outside of the range: the second time
the assertion fails. -/
theorem C51_assert_counterexample : invert .debug (Fl.ofRat 1) (Fl.ofRat (2 ^ 25)) (Fl.ofRat (2 ^ 25)) = .ok (.num false 0) ∧
    invert .debug (Fl.ofRat 1) (Fl.ofRat (2 ^ 25)) (.num false 0) = .error .assertFailed := by decide +kernel

section Stack
variable {F : Type} [Arith F]

theorem take_cons {b : Build} {f : Filter F} {fs st' : FilterStack F} {x z : F} :
    FilterStack.take b (some f :: fs) x = .ok (st', some z) ↔
      ∃ f' y fs', f.take x = .ok (f', some y) ∧ FilterStack.take b fs y = .ok (fs', some z) ∧ st' = some f' :: fs' := by
  rw [FilterStack.take]
  constructor
  · intro h
    cases hf : f.take x with
    | error e => rw [hf] at h; cases h
    | ok r =>
      obtain ⟨f', y⟩ := r
      rw [hf, res_bind_ok] at h
      cases y with
      | none => cases h
      | some y =>
        simp only at h
        cases hs : FilterStack.take b fs y with
        | error e => rw [hs] at h; cases h
        | ok r =>
          rw [hs, res_bind_ok] at h
          obtain ⟨fs', z'⟩ := r
          cases h
          exact ⟨f', y, fs', rfl, hs, rfl⟩
  · rintro ⟨f', y, fs', h1, h2, rfl⟩
    rw [h1, res_bind_ok]
    simp only
    rw [h2, res_bind_ok]
    rfl

theorem feeds_cons {b : Build} {f : Filter F} {fs st' : FilterStack F} {xs zs : List F} :
    FilterStack.Feeds b (some f :: fs) xs st' zs ↔ ∃ f' ys fs', f.Feeds xs f' ys ∧ FilterStack.Feeds b fs ys fs' zs ∧ st' = some f' :: fs' := by
  constructor
  · intro h
    generalize he : (some f :: fs : FilterStack F) = st at h
    induction h generalizing f fs with
    | nil st => subst he; exact ⟨f, [], fs, .nil f, .nil fs, rfl⟩
    | cons h1 h2 ih =>
      subst he
      obtain ⟨f1, y, fs1, a, b', rfl⟩ := take_cons.mp h1
      obtain ⟨f', ys, fs', c, d, rfl⟩ := ih rfl
      exact ⟨f', y :: ys, fs', .cons a c, .cons b' d, rfl⟩
  · rintro ⟨f', ys, fs', h1, h2, rfl⟩
    induction h1 generalizing fs zs with
    | nil f => cases h2; exact .nil _
    | cons a c ih =>
      cases h2 with
      | cons d e => exact .cons (take_cons.mpr ⟨_, _, _, a, d, rfl⟩) (ih e)

/-- C51: a stack of any stateful filters, fed with any series of samples, does what the composition of the filters does with whole
series; the filters are left in the same states. -/
theorem C51_composition {b : Build} (fs : List (Filter F)) : ∀ (st' : FilterStack F) (xs zs : List F),
    FilterStack.Feeds b (fs.map some) xs st' zs ↔ ∃ fs', st' = fs'.map some ∧ Through fs xs fs' zs := by
  induction fs with
  | nil =>
    intro st' xs zs
    constructor
    · intro h
      have : st' = [] ∧ zs = xs := by
        generalize he : (List.map some ([] : List (Filter F))) = st at h
        induction h with
        | nil => exact ⟨he.symm, rfl⟩
        | cons h1 h2 ih =>
          subst he
          cases h1
          obtain ⟨a, b⟩ := ih rfl
          exact ⟨a, by rw [b]⟩
      obtain ⟨rfl, rfl⟩ := this
      exact ⟨[], rfl, .nil _⟩
    · rintro ⟨fs', rfl, h⟩
      cases h
      change FilterStack.Feeds b [] xs [] xs
      induction xs with
      | nil => exact .nil _
      | cons x xs ih => exact .cons rfl ih
  | cons f fs ih =>
    intro st' xs zs
    rw [List.map_cons, feeds_cons]
    constructor
    · rintro ⟨f', ys, fs', h1, h2, rfl⟩
      obtain ⟨gs, rfl, h3⟩ := (ih _ _ _).mp h2
      exact ⟨f' :: gs, rfl, .cons h1 h3⟩
    · rintro ⟨gs, rfl, h⟩
      cases h with
      | cons h1 h2 => exact ⟨_, _, _, h1, (ih _ _ _).mpr ⟨_, rfl, h2⟩, rfl⟩

/-- `attach_filter` puts the new filter at the end: it works on what the others return. -/
theorem C51_attach {b : Build} {fs : List (Filter F)} {g : Filter F} {st' : FilterStack F} {xs zs : List F} :
    FilterStack.Feeds b (FilterStack.attach (fs.map some) (some g)) xs st' zs ↔
      ∃ fs' g' ys, st' = FilterStack.attach (fs'.map some) (some g') ∧ Through fs xs fs' ys ∧ g.Feeds ys g' zs := by
  have key : ∀ (fs : List (Filter F)) (xs : List F) (gs : List (Filter F)), Through (fs ++ [g]) xs gs zs ↔
      ∃ fs' g' ys, gs = fs' ++ [g'] ∧ Through fs xs fs' ys ∧ g.Feeds ys g' zs := by
    intro fs
    induction fs with
    | nil =>
      intro xs gs
      constructor
      · intro h
        cases h with
        | cons h1 h2 => cases h2; exact ⟨[], _, xs, rfl, .nil _, h1⟩
      · rintro ⟨fs', g', ys, rfl, h1, h2⟩
        cases h1
        exact .cons h2 (.nil _)
    | cons f fs ih =>
      intro xs gs
      constructor
      · intro h
        cases h with
        | cons h1 h2 =>
          obtain ⟨fs', g', ys, rfl, h3, h4⟩ := (ih _ _).mp h2
          exact ⟨_ :: fs', g', ys, rfl, .cons h1 h3, h4⟩
      · rintro ⟨fs', g', ys, rfl, h1, h2⟩
        cases h1 with
        | cons a c => exact .cons a ((ih _ _).mpr ⟨_, _, _, rfl, c, h2⟩)
  have e : FilterStack.attach (fs.map some) (some g) = (fs ++ [g]).map some := by simp [FilterStack.attach]
  rw [e, C51_composition]
  constructor
  · rintro ⟨gs, rfl, h⟩
    obtain ⟨fs', g', ys, rfl, h1, h2⟩ := (key _ _ _).mp h
    exact ⟨fs', g', ys, by simp [FilterStack.attach], h1, h2⟩
  · rintro ⟨fs', g', ys, rfl, h1, h2⟩
    exact ⟨fs' ++ [g'], by simp [FilterStack.attach], (key _ _ _).mpr ⟨_, _, _, rfl, h1, h2⟩⟩

/-- `value()` of a filter is what `value(sample)` last returned. -/
def Filter.Keeps (f : Filter F) : Prop := ∀ s x s' y, f.step s x = .ok (s', some y) → f.current s' = y

theorem take_keeps {f f' : Filter F} {x y : F} (hk : f.Keeps) (h : f.take x = .ok (f', some y)) : f'.value = y ∧ f'.Keeps := by
  unfold Filter.take at h
  split at h
  · cases h
  · next s z hs =>
    cases h
    exact ⟨hk _ _ _ _ hs, hk⟩

/-- The filters of the library do. -/
theorem C51_keeps {b : Build} (k : F) (c : BandCfg F) (m : MapCfg F) (lo hi : F) :
    (Filter.ewma k).Keeps ∧ (Filter.band c).Keeps ∧ (Filter.mapped m).Keeps ∧ (Filter.inverter b lo hi).Keeps ∧ (Filter.passthrough : Filter F).Keeps := by
  refine ⟨?_, ?_, ?_, ?_, ?_⟩
  · intro s x s' y h; cases h; rfl
  · intro s x s' y h
    obtain ⟨⟨ok, t⟩, -, h⟩ := res_bind h
    cases ok
    · cases h
    · cases h; rfl
  · intro s x s' y h
    obtain ⟨z, -, h⟩ := res_bind h
    cases h
    rfl
  · intro s x s' y h
    obtain ⟨z, -, h⟩ := res_bind h
    cases h
    rfl
  · intro s x s' y h; cases h; rfl

/-- C51: `value()` of a stack whose last filter keeps its value is what the stack last returned. -/
theorem C51_value_partial {b : Build} {st st' : FilterStack F} {f : Filter F} {x y : F} (hf : f.Keeps) (h : FilterStack.take b (FilterStack.attach st (some f)) x = .ok (st', some y)) :
    FilterStack.value st' = .ok y := by
  have key : ∀ (st : FilterStack F) (st' : FilterStack F) (x : F), FilterStack.take b (st ++ [some f]) x = .ok (st', some y) → ∃ f', st'.getLast? = some (some f') ∧ f'.value = y := by
    intro st
    induction st with
    | nil =>
      intro st' x h
      obtain ⟨f', z, fs', a, c, rfl⟩ := take_cons.mp h
      cases c
      exact ⟨f', rfl, (take_keeps hf a).1⟩
    | cons g st ih =>
      intro st' x h
      cases g with
      | none =>
        rw [List.cons_append, FilterStack.take] at h
        split at h
        · cases h
        · cases hs : FilterStack.take b (st ++ [some f]) x with
          | error e => rw [hs] at h; cases h
          | ok r =>
            obtain ⟨fs', z⟩ := r
            rw [hs, res_bind_ok] at h
            cases h
            obtain ⟨f', a, c⟩ := ih _ _ hs
            refine ⟨f', ?_, c⟩
            rw [List.getLast?_cons, a]; rfl
      | some g =>
        obtain ⟨g', z, fs', a, c, rfl⟩ := take_cons.mp h
        obtain ⟨f', a', c'⟩ := ih _ _ c
        refine ⟨f', ?_, c'⟩
        rw [List.getLast?_cons, a']; rfl
  obtain ⟨f', a, c⟩ := key st st' x h
  rw [FilterStack.value, a]
  simp [c]

/-- C51 is false for `value()` of a stack without filters: the stack returns the sample, `value()` returns 0. -/
theorem C51_empty_counterexample (b : Build) : FilterStack.take b ([] : FilterStack Rat) 5 = .ok ([], some 5) ∧ FilterStack.value ([] : FilterStack Rat) = .ok 0 :=
  ⟨rfl, rfl⟩

/-- The filters that are there. -/
def presentFilters (st : FilterStack F) : List (Filter F) := st.filterMap id

/-- C51, null pointers: in a release build a stack with null pointers does what it would do without them. -/
theorem C51_null_release (st : FilterStack F) (x : F) :
    (FilterStack.take .release st x).map (fun p => (presentFilters p.1, p.2)) =
      (FilterStack.take .release ((presentFilters st).map some) x).map (fun p => (presentFilters p.1, p.2)) := by
  induction st generalizing x with
  | nil => rfl
  | cons f st ih =>
    cases f with
    | none =>
      have e : presentFilters (none :: st) = presentFilters st := rfl
      rw [e, ← ih, FilterStack.take, if_neg (by simp)]
      cases FilterStack.take .release st x <;> rfl
    | some f =>
      have e : presentFilters (some f :: st) = f :: presentFilters st := rfl
      rw [e, List.map_cons, FilterStack.take, FilterStack.take]
      cases f.take x with
      | error e => rfl
      | ok r =>
        obtain ⟨f', y⟩ := r
        simp only [res_bind_ok]
        cases y with
        | none => simp [Except.map, res_pure, presentFilters, List.filterMap_map, Function.comp_def]
        | some y =>
          have := ih y
          cases h1 : FilterStack.take .release st y <;> cases h2 : FilterStack.take .release ((presentFilters st).map some) y <;> rw [h1, h2] at this <;> simp only [h1, h2] <;>
            simp [Except.map, presentFilters, res_pure] at this ⊢ <;> exact this

/-- C51, null pointers: in a debug build a stack fails the assertion when the sample reaches one. -/
theorem C51_null_debug {fs : List (Filter F)} {st st' : FilterStack F} {x y : F} (h : FilterStack.take .debug (fs.map some) x = .ok (st', some y)) :
    FilterStack.take .debug (fs.map some ++ none :: st) x = .error .assertFailed := by
  induction fs generalizing x st' with
  | nil => rfl
  | cons f fs ih =>
    rw [List.map_cons] at h
    obtain ⟨f', z, fs', h1, h2, rfl⟩ := take_cons.mp h
    rw [List.map_cons, List.cons_append, FilterStack.take, h1, res_bind_ok]
    simp only [ih h2]
    rfl

/-- `value()` and `reset_to()` of such a stack are undefined: the one if the last pointer is null, the other if any is. -/
theorem C51_null_counterexample (st : FilterStack F) (v : F) :
    FilterStack.value (FilterStack.attach st none) = .error .ub ∧ (none ∈ st → FilterStack.resetTo st v = .error .ub) := by
  constructor
  · simp [FilterStack.value, FilterStack.attach]
  · intro h
    induction st with
    | nil => cases h
    | cons f st ih =>
      cases f with
      | none => rfl
      | some f =>
        rw [FilterStack.resetTo, ih (by simpa using h)]
        rfl

/-- An average after a null pointer and before one. -/
example : (FilterStack.take .release [none, some (.ewma 10)] (5 : Rat)).map Prod.snd = .ok (some 5) ∧
    (FilterStack.take .debug [some (.ewma 10), none] (5 : Rat)).map Prod.snd = .error .assertFailed := ⟨rfl, rfl⟩

/-- A stack of three filters: band, percentage, average. -/
def threeFilters : FilterStack Rat := [some (.band narrow), some (.mapped percent), some (.ewma 10)]

/-- The values of a series of samples. -/
def stackValues (st : FilterStack Rat) : List Rat → List (Option Rat)
  | [] => []
  | x :: xs =>
    match FilterStack.take .debug st x with
    | .error _ => []
    | .ok (st', y) => y :: stackValues st' xs

example : stackValues threeFilters [3, 4, 20, 2] = [some 50, some 75, some (250 / 3), some (125 / 2)] := by decide +kernel

end Stack

end Spine
