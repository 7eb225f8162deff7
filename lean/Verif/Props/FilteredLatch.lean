import Verif.Model.FilteredLatch
import Verif.Props.Filter
import Verif.Core.Bind
import Verif.Proofs.Latch
/-!
# C156: a latch behind an average does not react to noise and short spikes
-/

namespace Spine
open Latch F32 Fl

section
variable {F : Type} [Arith F]

theorem stays_off {cfg : LatchConfig F} (hmax : cfg.maxOff = 0) : ∀ (rs : List (Int × F)) {l l' : Latch} {os : List Bool}, l.on = false → (∀ r ∈ rs, Arith.lt cfg.high r.2 = false) →
    run cfg l rs = .ok (os, l') → (∀ o ∈ os, o = false) ∧ l'.on = false := by
  intro rs
  induction rs with
  | nil => intro l l' os hl _ h; cases h; exact ⟨by simp, hl⟩
  | cons r rs ih =>
    intro l l' os hl hr h
    obtain ⟨now, v⟩ := r
    rw [run] at h
    obtain ⟨l₁, h1, h⟩ := res_bind h
    obtain ⟨⟨os₁, l₂⟩, h2, h⟩ := res_bind h
    cases h
    have hv : Arith.lt cfg.high v = false := hr (now, v) List.mem_cons_self
    have e : l₁.on = false := by
      unfold newReading both at h1
      have hz : KTime.ne .milli .milli cfg.maxOff 0 = .ok false := by rw [hmax]; decide +kernel
      simp only [hl, Bool.false_eq_true, if_false, res_bind_ok, Bool.not_false, if_true, Bool.and_false, hv, hz, Bool.false_and] at h1
      obtain ⟨x, hx, h1⟩ := res_bind h1
      split at h1
      · cases h1; exact hl
      · obtain ⟨y, hy, h1⟩ := res_bind h1
        split at h1
        · cases h1; rfl
        · cases h1; exact hl
    obtain ⟨i1, i2⟩ := ih e (fun r hr' => hr r (List.mem_cons_of_mem _ hr')) h2
    refine ⟨?_, i2⟩
    intro o ho
    rcases List.mem_cons.mp ho with rfl | ho
    · exact e
    · exact i1 o ho

theorem responses_off {cfg : LatchConfig F} (hmax : cfg.maxOff = 0) {t0 : Int} {rs : List (Int × F)} {os : List Bool} (hr : ∀ r ∈ rs, Arith.lt cfg.high r.2 = false)
    (h : responses cfg t0 rs = .ok os) : ∀ o ∈ os, o = false := by
  unfold responses at h
  obtain ⟨l, hl, h⟩ := res_bind h
  obtain ⟨⟨os', l'⟩, h2, h⟩ := res_bind h
  cases h
  have : l.on = false := by
    unfold Latch.create at hl
    obtain ⟨x, _, hl⟩ := res_bind hl
    cases hl; rfl
  exact (stays_off hmax rs this hr h2).1

theorem stays_on {cfg : LatchConfig F} (hmax : cfg.maxOn = 0) : ∀ (rs : List (Int × F)) {l l' : Latch} {os : List Bool}, l.on = true → (∀ r ∈ rs, Arith.lt r.2 cfg.low = false) →
    run cfg l rs = .ok (os, l') → (∀ o ∈ os, o = true) ∧ l'.on = true := by
  intro rs
  induction rs with
  | nil => intro l l' os hl _ h; cases h; exact ⟨by simp, hl⟩
  | cons r rs ih =>
    intro l l' os hl hr h
    obtain ⟨now, v⟩ := r
    rw [run] at h
    obtain ⟨l₁, h1, h⟩ := res_bind h
    obtain ⟨⟨os₁, l₂⟩, h2, h⟩ := res_bind h
    cases h
    have hv : Arith.lt v cfg.low = false := hr (now, v) List.mem_cons_self
    have e : l₁.on = true := by
      unfold newReading both at h1
      have hz : KTime.ne .milli .milli cfg.maxOn 0 = .ok false := by rw [hmax]; decide +kernel
      simp only [hl, Bool.false_eq_true, if_false, res_bind_ok, Bool.not_true, if_true, Bool.and_false, hv, hz, Bool.false_and] at h1
      obtain ⟨x, hx, h1⟩ := res_bind h1
      split at h1
      · cases h1; exact hl
      · obtain ⟨y, hy, h1⟩ := res_bind h1
        split at h1
        · cases h1; rfl
        · cases h1; exact hl
    obtain ⟨i1, i2⟩ := ih e (fun r hr' => hr r (List.mem_cons_of_mem _ hr')) h2
    refine ⟨?_, i2⟩
    intro o ho
    rcases List.mem_cons.mp ho with rfl | ho
    · exact e
    · exact i1 o ho

theorem run_length {cfg : LatchConfig F} : ∀ (rs : List (Int × F)) {l l' : Latch} {os : List Bool}, run cfg l rs = .ok (os, l') → os.length = rs.length ∧ (l.on :: os).getLast (by simp) = l'.on := by
  intro rs
  induction rs with
  | nil => intro l l' os h; cases h; exact ⟨rfl, rfl⟩
  | cons r rs ih =>
    intro l l' os h
    obtain ⟨now, v⟩ := r
    rw [run] at h
    obtain ⟨l₁, h1, h⟩ := res_bind h
    obtain ⟨⟨os₁, l₂⟩, h2, h⟩ := res_bind h
    cases h
    obtain ⟨i1, i2⟩ := ih h2
    exact ⟨by simp [i1], by rw [List.getLast_cons (by simp)]; exact i2⟩

theorem averages_append {k : F} : ∀ (as bs : List (Int × F)) (s : Ewma F), averages k s (as ++ bs) = averages k s as ++ averages k (s.samples k (as.map Prod.snd)) bs := by
  intro as
  induction as with
  | nil => intro bs s; rfl
  | cons a as ih =>
    intro bs s
    obtain ⟨t, x⟩ := a
    rw [List.cons_append, averages, averages, List.cons_append, ih]
    rfl

theorem averages_length {k : F} : ∀ (rs : List (Int × F)) (s : Ewma F), (averages k s rs).length = rs.length := by
  intro rs
  induction rs with
  | nil => intro s; rfl
  | cons r rs ih => intro s; obtain ⟨t, x⟩ := r; simp [averages, ih]

/-- The averages are the values after each prefix of the samples. -/
theorem averages_mem {k : F} : ∀ (rs : List (Int × F)) (s : Ewma F) {r : Int × F}, r ∈ averages k s rs → ∃ n, n < rs.length ∧ r.2 = (s.samples k ((rs.map Prod.snd).take (n + 1))).value := by
  intro rs
  induction rs with
  | nil => intro s r h; cases h
  | cons r0 rs ih =>
    intro s r h
    obtain ⟨t, x⟩ := r0
    rw [averages] at h
    rcases List.mem_cons.mp h with rfl | h
    · exact ⟨0, by simp, rfl⟩
    · obtain ⟨n, hn, e⟩ := ih _ h
      exact ⟨n + 1, by simpa using hn, e⟩

end

/-- **C156 (partial)**, in single precision: noise below the threshold never switches the latch on, for any number of samples. Missing: a latch with a maximal off time, which goes on without
a reason (C42). -/
theorem C156_noise_partial {cfg : LatchConfig Fl} {k : Fl} {t0 : Int} {rs : List (Int × Fl)} {os : List Bool} (hmax : cfg.maxOff = 0) (hk : k.Ok) (hk1 : Fl.le k (Arith.ofRat 1) = false)
    (hx : ∀ r ∈ rs, r.2.fin = true ∧ r.2.Ok ∧ |r.2.val| ≤ halfMax ∧ Fl.lt cfg.high r.2 = false) (h : filteredResponses cfg k t0 rs = .ok os) : ∀ o ∈ os, o = false := by
  refine responses_off hmax ?_ h
  intro r hr
  obtain ⟨n, hn, e⟩ := averages_mem rs _ hr
  have hne : (rs.map Prod.snd).take (n + 1) ≠ [] := by
    intro h0
    have := congrArg List.length h0
    simp at this
    subst this
    simp at hn
  have hall : ∀ x ∈ (rs.map Prod.snd).take (n + 1), x.fin = true ∧ x.Ok ∧ |x.val| ≤ halfMax ∧ Fl.lt cfg.high x = false := by
    intro x hx'
    obtain ⟨r', hr', rfl⟩ := List.mem_map.mp (List.mem_of_mem_take hx')
    exact hx r' hr'
  obtain ⟨f, -, ⟨b, hb, hle⟩⟩ := C48_range_partial (k := k) (v0 := fzero) Ewma.create hk hk1 hne (fun x hx' => ⟨(hall x hx').1, (hall x hx').2.1, (hall x hx').2.2.1⟩)
  rw [e]
  change Fl.lt cfg.high _ = false
  have hbp := hall b hb
  change Fl.le ((Ewma.create.samples k ((rs.map Prod.snd).take (n + 1))).value) b = true at hle
  generalize (Ewma.create.samples k ((rs.map Prod.snd).take (n + 1))).value = a at *
  have hnb := hbp.2.2.2
  cases hc : Fl.lt cfg.high a with
  | false => rfl
  | true =>
    rw [← hnb]
    cases hh : cfg.high <;> rw [hh] at hc hnb <;> cases a <;> cases b <;> simp_all [Fl.lt, Fl.le, Fl.fin]
    rename_i s t u
    cases s <;> simp_all
    linarith

/-! ## Spikes -/

/-- What is left of the distance from `c` to `x` after `m` samples. -/
def reach (k c x : Rat) (m : Nat) : Rat := x - (x - c) * (1 - 1 / k) ^ m

theorem sample_between {k : Rat} {s : Ewma Rat} {x : Rat} (hn : 1 ≤ s.n) : ∃ d, (d = s.n + 1 ∨ d = k) ∧ (s.sample k x).n = s.n + 1 ∧ (s.sample k x).value = s.value + (x - s.value) / d := by
  have h0 : feq s.n fzero = false := by
    simp only [feq, fzero, Arith.le, Arith.ofRat, Bool.and_eq_false_iff]
    exact Or.inl (decide_eq_false (by linarith))
  refine ⟨fmin (s.n + 1) k, ?_, ?_⟩
  · unfold fmin; split <;> simp
  · simp only [Ewma.sample, h0, Bool.false_eq_true, if_false, Arith.add, Arith.sub, Arith.div, Arith.ofRat, and_self]

/-- All samples on one side: so is the average. -/
theorem side (σ : Rat) {k C : Rat} (hk : 1 ≤ k) : ∀ (xs : List Rat) {s : Ewma Rat}, 1 ≤ s.n → σ * s.value ≤ C → (∀ x ∈ xs, σ * x ≤ C) →
    (s.samples k xs).n = s.n + xs.length ∧ σ * (s.samples k xs).value ≤ C := by
  intro xs
  induction xs with
  | nil => intro s _ h _; exact ⟨by simp [Ewma.samples], h⟩
  | cons x xs ih =>
    intro s hn hv hx
    obtain ⟨d, hd, e1, e2⟩ := sample_between (k := k) (x := x) hn
    have hd1 : 1 ≤ d := by rcases hd with rfl | rfl <;> linarith
    have hxC := hx x List.mem_cons_self
    have hv' : σ * (s.sample k x).value ≤ C := by
      have h1 : σ * (s.sample k x).value = σ * s.value * (1 - 1 / d) + σ * x * (1 / d) := by rw [e2]; field_simp; ring
      have h2 : 1 / d ≤ 1 := by rw [div_le_one (by linarith)]; exact hd1
      have h3 : 0 ≤ 1 / d := by positivity
      rw [h1]
      calc _ ≤ C * (1 - 1 / d) + C * (1 / d) := by gcongr
        _ = C := by ring
    obtain ⟨i1, i2⟩ := ih (s := s.sample k x) (by rw [e1]; linarith) hv' (fun y hy => hx y (List.mem_cons_of_mem _ hy))
    refine ⟨?_, i2⟩
    change ((s.sample k x).samples k xs).n = _
    rw [i1, e1]
    push_cast [List.length_cons]
    ring

theorem side_first (σ : Rat) {k C : Rat} (hk : 1 ≤ k) {xs : List Rat} (hne : xs ≠ []) (hx : ∀ x ∈ xs, σ * x ≤ C) :
    ((Ewma.create : Ewma Rat).samples k xs).n = xs.length ∧ σ * ((Ewma.create : Ewma Rat).samples k xs).value ≤ C := by
  obtain ⟨x, xs, rfl⟩ := List.exists_cons_of_ne_nil hne
  have e : (Ewma.create : Ewma Rat).sample k x = ⟨1, x⟩ := by simp [Ewma.sample, Ewma.create, feq, fzero, Arith.le, Arith.ofRat, Arith.add]
  change (((Ewma.create : Ewma Rat).sample k x).samples k xs).n = _ ∧ σ * (((Ewma.create : Ewma Rat).sample k x).samples k xs).value ≤ _
  rw [e]
  obtain ⟨i1, i2⟩ := side σ hk xs (s := ⟨1, x⟩) (by norm_num) (hx x List.mem_cons_self) (fun y hy => hx y (List.mem_cons_of_mem _ hy))
  refine ⟨?_, i2⟩
  rw [i1]
  push_cast [List.length_cons]
  ring

theorem reach_mono {k c x : Rat} (hk : 1 ≤ k) (h : c ≤ x) {i j : Nat} (hij : i ≤ j) : reach k c x i ≤ reach k c x j := by
  have h2 : 1 / k ≤ 1 := by rw [div_le_one (by linarith)]; exact hk
  have h3 : 0 ≤ 1 / k := by positivity
  have := pow_le_pow_of_le_one (by linarith : 0 ≤ 1 - 1 / k) (by linarith) hij
  unfold reach
  have := mul_le_mul_of_nonneg_left this (by linarith : 0 ≤ x - c)
  linarith

theorem spike_bound (σ : Rat) {k C X : Rat} (hk : 1 ≤ k) (hCX : C ≤ X) (m : Nat) : ∀ (rs : List (Int × Rat)) {s : Ewma Rat} {j : Nat}, 1 ≤ s.n → k ≤ s.n + 1 → σ * s.value ≤ reach k C X j →
    (∀ r ∈ rs, σ * r.2 ≤ X) → rs.countP (fun r => decide (C < σ * r.2)) + j ≤ m → ∀ r ∈ averages k s rs, σ * r.2 ≤ reach k C X m := by
  intro rs
  induction rs with
  | nil => intro s j _ _ _ _ _ r hr; cases hr
  | cons r0 rs ih =>
    intro s j hn hfull hv hx hc r hr
    obtain ⟨t, x⟩ := r0
    have hw := C82_weight (x := x) (by linarith : 0 < s.n) (by linarith : 0 < k) hfull
    obtain ⟨d, -, e1, -⟩ := sample_between (k := k) (x := x) hn
    have h2 : 1 / k ≤ 1 := by rw [div_le_one (by linarith)]; exact hk
    have h3 : 0 ≤ 1 / k := by positivity
    have hxX : σ * x ≤ X := hx (t, x) List.mem_cons_self
    have h1 : σ * (s.sample k x).value = σ * s.value * (1 - 1 / k) + σ * x * (1 / k) := by rw [hw]; ring
    obtain ⟨j', hj', hv'⟩ : ∃ j', rs.countP (fun r => decide (C < σ * r.2)) + j' ≤ m ∧ σ * (s.sample k x).value ≤ reach k C X j' := by
      rw [List.countP_cons] at hc
      by_cases hs : C < σ * x
      · refine ⟨j + 1, by simp only [hs, decide_true, if_true] at hc; omega, ?_⟩
        rw [h1]
        calc _ ≤ reach k C X j * (1 - 1 / k) + X * (1 / k) := by gcongr
          _ = reach k C X (j + 1) := by unfold reach; rw [pow_succ]; ring
      · refine ⟨j, by omega, ?_⟩
        push Not at hs
        have h0 : C ≤ reach k C X j := by
          have := reach_mono hk hCX (Nat.zero_le j)
          simpa [reach] using this
        rw [h1]
        calc _ ≤ reach k C X j * (1 - 1 / k) + reach k C X j * (1 / k) := by gcongr; linarith
          _ = reach k C X j := by ring
    rw [averages] at hr
    rcases List.mem_cons.mp hr with rfl | hr
    · exact hv'.trans (reach_mono hk hCX (by omega))
    · exact ih (by rw [e1]; linarith) (by rw [e1]; linarith) hv' (fun r hr => hx r (List.mem_cons_of_mem _ hr)) hj' r hr

/-- **C156 (partial)**, in exact arithmetic: samples up to `c` for a whole frame, then any number of samples, of which at most `m` are above `c`, and none above `x`: the latch stays off if the part of the way from `c` to `x` that `m` samples
can make up does not reach the threshold. Missing: spikes before the frame is full (`C156_first_counterexample`); rounding, for which see `C156_spikes_float_partial`; a maximal off time (C42). -/
theorem C156_spikes_partial {cfg : LatchConfig Rat} {k c x : Rat} {t0 : Int} {pre rs : List (Int × Rat)} {os : List Bool} {m : Nat} (hmax : cfg.maxOff = 0) (hk : 1 ≤ k) (hcx : c ≤ x)
    (hfull : k ≤ pre.length) (hpre : ∀ r ∈ pre, r.2 ≤ c) (hrs : ∀ r ∈ rs, r.2 ≤ x) (hm : rs.countP (fun r => decide (c < r.2)) ≤ m)
    (hreach : x - (x - c) * (1 - 1 / k) ^ m ≤ cfg.high) (h : filteredResponses cfg k t0 (pre ++ rs) = .ok os) : ∀ o ∈ os, o = false := by
  have hne : pre ≠ [] := by
    rintro rfl
    simp at hfull
    linarith
  have hl : (1 : Rat) ≤ pre.length := hk.trans hfull
  have hc0 : c ≤ cfg.high := by
    have := reach_mono hk hcx (Nat.zero_le m)
    have e : reach k c x 0 = c := by simp [reach]
    rw [e] at this
    exact this.trans hreach
  refine responses_off hmax ?_ h
  intro r hr
  rw [averages_append] at hr
  have key : r.2 ≤ cfg.high := by
    rcases List.mem_append.mp hr with hr | hr
    · obtain ⟨n, hn, e⟩ := averages_mem pre _ hr
      have hne' : (pre.map Prod.snd).take (n + 1) ≠ [] := by
        intro h0
        have := congrArg List.length h0
        simp at this
        subst this
        simp at hn
      have := (side_first 1 (C := c) hk hne' (fun y hy => by
        obtain ⟨r', hr', rfl⟩ := List.mem_map.mp (List.mem_of_mem_take hy)
        rw [one_mul]; exact hpre r' hr')).2
      rw [e]
      linarith
    · obtain ⟨i1, i2⟩ := side_first 1 (C := c) hk (xs := pre.map Prod.snd) (by simpa using hne) (fun y hy => by
        obtain ⟨r', hr', rfl⟩ := List.mem_map.mp hy
        rw [one_mul]; exact hpre r' hr')
      rw [List.length_map] at i1
      have := spike_bound 1 hk hcx m rs (j := 0) (by rw [i1]; exact hl) (by rw [i1]; linarith) (by simpa [reach] using i2) (fun r hr => by rw [one_mul]; exact hrs r hr) (by simpa using hm) r hr
      rw [one_mul] at this
      exact this.trans hreach
  show decide (cfg.high < r.2) = false
  simpa using key

/-- **C156 (partial)**: and a latch that is on stays on through drop-outs. -/
theorem C156_dropouts_partial {cfg : LatchConfig Rat} {k c x : Rat} {t0 : Int} {pre rs : List (Int × Rat)} {os : List Bool} {m : Nat} (hmax : cfg.maxOn = 0) (hk : 1 ≤ k) (hcx : x ≤ c)
    (hfull : k ≤ pre.length) (hpre : ∀ r ∈ pre, c ≤ r.2) (hrs : ∀ r ∈ rs, x ≤ r.2) (hm : rs.countP (fun r => decide (r.2 < c)) ≤ m)
    (hreach : cfg.low ≤ x + (c - x) * (1 - 1 / k) ^ m) (h : filteredResponses cfg k t0 (pre ++ rs) = .ok os) (hon : (os.take pre.length).getLast? = some true) :
    ∀ o ∈ os.drop pre.length, o = true := by
  have hne : pre ≠ [] := by
    rintro rfl
    simp at hfull
    linarith
  have hl : (1 : Rat) ≤ pre.length := hk.trans hfull
  unfold filteredResponses responses at h
  rw [averages_append] at h
  obtain ⟨l, hl0, h⟩ := res_bind h
  rw [run_append] at h
  obtain ⟨⟨os', l'⟩, h2, h⟩ := res_bind h
  cases h
  obtain ⟨⟨os₁, l₁⟩, h1, h2⟩ := res_bind h2
  obtain ⟨⟨os₂, l₂⟩, h3, h2⟩ := res_bind h2
  cases h2
  obtain ⟨e1, e2⟩ := run_length _ h1
  rw [averages_length] at e1
  simp only [← e1, List.take_left', List.drop_left'] at hon ⊢
  have hl1 : l₁.on = true := by
    rw [← e2]
    cases os₁ with
    | nil => cases hon
    | cons o os₁ =>
      rw [List.getLast_cons (by simp)]
      rw [List.getLast?_eq_some_getLast (by simp)] at hon
      exact Option.some.inj hon
  refine (stays_on hmax _ hl1 ?_ h3).1
  intro r hr
  obtain ⟨i1, i2⟩ := side_first (-1) (C := -c) hk (xs := pre.map Prod.snd) (by simpa using hne) (fun y hy => by
    obtain ⟨r', hr', rfl⟩ := List.mem_map.mp hy
    have := hpre r' hr'
    linarith)
  rw [List.length_map] at i1
  have := spike_bound (-1) hk (by linarith : -c ≤ -x) m rs (j := 0) (by rw [i1]; exact hl) (by rw [i1]; linarith) (by simpa [reach] using i2) (fun r hr => by have := hrs r hr; linarith)
    (by
      have e : (fun r : Int × Rat => decide (-c < -1 * r.2)) = fun r => decide (r.2 < c) := by
        funext r
        congr 1
        rw [neg_one_mul, neg_lt_neg_iff]
      rw [e]; simpa using hm) r hr
  unfold reach at this
  show decide (r.2 < cfg.low) = false
  have : cfg.low ≤ r.2 := by linarith
  simpa using this

/-- C156 is false before the frame is full: the first sample is the average, and switches the latch on. -/
theorem C156_first_counterexample : filteredResponses { high := 30, low := 20 : LatchConfig Rat } 100 0 [(0, 50), (10, 0), (20, 0)] = .ok [true, true, false] := by decide +kernel

/-- With a frame of 10, at 20 for a frame, two spikes of 60 stay below the threshold 30 (they reach 27.6), and three do not (they reach 30.84). -/
example : (60 - (60 - 20) * (1 - 1 / 10) ^ 2 ≤ (30 : Rat)) ∧
    filteredResponses { high := 30, low := 10 : LatchConfig Rat } 10 0 (List.replicate 10 (0, 20) ++ [(1, 60), (2, 60), (3, 20)]) = .ok (List.replicate 13 false) ∧
    filteredResponses { high := 30, low := 10 : LatchConfig Rat } 10 0 (List.replicate 10 (0, 20) ++ [(1, 60), (2, 60), (3, 60)]) = .ok (List.replicate 12 false ++ [true]) := by decide +kernel

end Spine
