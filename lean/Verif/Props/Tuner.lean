import Verif.Proofs.Tuner
/-!
# PID auto-tuner: C47
-/

namespace Spine
open Tuner

variable {F : Type} [Arith F]

/-- C47: every output requested by the tuner is the configured minimum or maximum, for any inputs in any arithmetic. -/
theorem C47_outputs {target hyst lo hi : F} {loop now cycles : Int} {mode : ZnMode} {l : List (F × Int)} {ts : List (Tuner F)}
    (h : (Tuner.start target hyst loop lo hi mode cycles now).run l = .ok ts) : ∀ u ∈ ts, u.outputValue = lo ∨ u.outputValue = hi :=
  run_value l _ ts h (.inr rfl)

/-- One reading cannot be above `target + h` and below `target - h`, in exact arithmetic. -/
theorem band_rat {target h : Rat} (hh : 0 ≤ h) : Band target h := by
  intro x hx
  simp only [Arith.lt, Arith.add, Arith.sub, decide_eq_true_eq, decide_eq_false_iff_not, not_lt] at hx ⊢
  linarith

/-- One reading cannot be above `target + h` and below `target - h`, in single precision, where `h` is the result of `std::fabs`. -/
theorem band_ieee {target h : Fl} (hh : h.Ok) : Band target (Fl.fabs h) := by
  intro x hx
  by_contra hc
  have h1 := Fl.lt_trans hx (Bool.not_eq_false _ ▸ hc)
  change Fl.lt (Fl.add target (Fl.fabs h)) (Fl.sub target (Fl.fabs h)) = true at h1
  cases target with
  | nan => cases h <;> simp [Fl.add, Fl.fabs, Fl.lt] at h1
  | inf s => cases h <;> cases s <;> simp [Fl.add, Fl.sub, Fl.neg, Fl.fabs, Fl.lt] at h1
  | num s m =>
    cases h with
    | nan => simp [Fl.add, Fl.fabs, Fl.lt] at h1
    | inf t => simp [Fl.add, Fl.sub, Fl.neg, Fl.fabs, Fl.lt] at h1
    | num t n =>
      have hn : 0 ≤ n := hh.1
      have e1 : Fl.add (.num s m) (Fl.fabs (.num t n)) = if (Fl.num s m).val + (Fl.num false n).val = 0 then Fl.num (s && false) 0
        else Fl.ofRat ((Fl.num s m).val + (Fl.num false n).val) := rfl
      have e2 : Fl.sub (.num s m) (Fl.fabs (.num t n)) = if (Fl.num s m).val + (Fl.num true n).val = 0 then Fl.num (s && true) 0
        else Fl.ofRat ((Fl.num s m).val + (Fl.num true n).val) := rfl
      rw [e1, e2, Fl.lt_zero_left, Fl.lt_zero_right, Fl.ofRat_mono (by simp [Fl.val]; linarith)] at h1
      cases h1

/-- C47: as long as the tuner has not finished, its cycle count is the number of oscillations of the input through the band; it
finishes with the reading that completes the configured number of them. -/
theorem C47_cycles {target hyst lo hi : F} {loop now cycles : Int} {mode : ZnMode} {l : List (F × Int)} {ts : List (Tuner F)} (hb : Band target hyst) (hc : 1 ≤ cycles)
    (h : (Tuner.start target hyst loop lo hi mode cycles now).run l = .ok ts) (hall : ∀ u ∈ ts.dropLast, u.finished = false) (u : Tuner F) (hu : ts.getLast? = some u) :
    u.cycle = oscillations (Arith.add target hyst) (Arith.sub target hyst) true (l.map Prod.fst) ∧
      (u.finished = true ↔ (oscillations (Arith.add target hyst) (Arith.sub target hyst) true (l.map Prod.fst) : Int) = cycles) := by
  have hf : (Tuner.start target hyst loop lo hi mode cycles now).finished = false := by
    simp [Tuner.start, finished]; omega
  obtain ⟨h1, h2, h3⟩ := run_cycle l _ ts hb hf h hall
  have e : ts.getLastD (Tuner.start target hyst loop lo hi mode cycles now) = u := by
    rw [List.getLastD_eq_getLast?, hu]; rfl
  rw [e] at h1 h2 h3
  change u.cycle ≤ cycles at h2
  change u.cycles = cycles at h3
  change u.cycle = 0 + (oscillations (Arith.add target hyst) (Arith.sub target hyst) true (l.map Prod.fst) : Int) at h1
  rw [zero_add] at h1
  refine ⟨h1, ?_⟩
  simp only [finished, h3, decide_eq_true_eq, ge_iff_le]
  rw [← h1]
  omega

/-- C47 for the tuning loop of `PID::autotune`: it sets only the lower and the upper limit until the process has oscillated the
configured number of times, and then stops. Missing: the last value set, which is 0 (see `C47_zero_counterexample`), and the average
(see `C47_average_partial`). -/
theorem C47_loop_partial {b : Build} {target hyst lo hi : F} {loop now cycles : Int} {mode : ZnMode} {env : List (F × Int)} (hb : Band target hyst) (hc : 1 ≤ cycles)
    {r : Option (List F × Tuner F)} (h : PID.tuneLoop b lo hi (Tuner.start target hyst loop lo hi mode cycles now) env = .ok r) :
    (r = none → (oscillations (Arith.add target hyst) (Arith.sub target hyst) true (env.map Prod.fst) : Int) < cycles) ∧
    (∀ os t, r = some (os, t) → ∃ k os', k ≤ env.length ∧ os = os' ++ [fzero] ∧ os'.length = k ∧ (∀ o ∈ os', o = lo ∨ o = hi) ∧
      (oscillations (Arith.add target hyst) (Arith.sub target hyst) true ((env.take k).map Prod.fst) : Int) = cycles ∧ t.cycle = cycles) := by
  have hf : (Tuner.start target hyst loop lo hi mode cycles now).finished = false := by
    simp [Tuner.start, finished]; omega
  obtain ⟨h1, h2⟩ := loop_run env _ r h
  constructor
  · intro hr
    obtain ⟨ts, j1, j2⟩ := h2 hr
    obtain ⟨e1, e2, e3⟩ := run_cycle env _ ts hb hf j1 (fun u hu => j2 u (List.mem_cons_of_mem _ (List.dropLast_subset _ hu)))
    have hl := j2 _ (List.getLastD_mem_cons (l := ts) (a := Tuner.start target hyst loop lo hi mode cycles now))
    simp only [finished, e3, e1, decide_eq_false_iff_not, ge_iff_le, not_le] at hl
    simpa [Tuner.start] using hl
  · intro os t hr
    obtain ⟨k, ts, j1, j2, j3, j4, j5, j6, j7⟩ := h1 os t hr
    have hne : ts ≠ [] := by
      rintro rfl
      simp only [List.getLastD_nil] at j6
      rw [j6, hf] at j7
      cases j7
    rw [List.dropLast_cons_of_ne_nil hne] at j4
    obtain ⟨e1, e2, e3⟩ := run_cycle _ _ ts hb hf j2 (fun u hu => j4 u (List.mem_cons_of_mem _ hu))
    rw [← j6] at e1 e2 e3
    simp only [finished, e3, decide_eq_true_eq, ge_iff_le] at j7
    change cycles ≤ t.cycle at j7
    change t.cycle ≤ cycles at e2
    change t.cycle = 0 + _ at e1
    rw [zero_add] at e1
    refine ⟨k, ts.map (·.outputValue), j1, j5, by simpa using j3, ?_, ?_, by omega⟩
    · intro o ho
      obtain ⟨u, hu, rfl⟩ := List.mem_map.mp ho
      exact C47_outputs j2 u hu
    · refine Eq.trans e1.symm (by omega)

/-- Ten readings that oscillate twice around 50 with a hysteresis of 1. -/
def swing : List (Rat × Int) := [(20, 0), (52, 100), (50, 200), (40, 300), (60, 400), (51, 500), (50, 600), (48, 700), (20, 800), (10, 900)]

example : (PID.tuneLoop .debug (0 : Rat) 255 (Tuner.start 50 1 100 0 255 .less 2 0) swing).map (·.map Prod.fst) =
    .ok (some [255, 0, 0, 255, 0, 0, 0, 0, 0]) := by decide +kernel

/-- C47 is false for the last value: with a lower limit of 10 the loop ends with a request for 0. -/
theorem C47_zero_counterexample : (PID.tuneLoop .debug (10 : Rat) 255 (Tuner.start 50 1 100 10 255 .less 2 0) swing).map (·.map Prod.fst) =
    .ok (some [255, 10, 10, 255, 10, 10, 10, 10, 0]) := by decide +kernel

/-- C47, the gains reported, in exact arithmetic: the sum of the gains of the third to the last cycle divided by the number of
cycles minus one. The gains of the cycles are those reported at the end of each by a tuner that runs one cycle longer.
Missing: an average would be over the number of cycles minus two. -/
theorem C47_average_partial {target hyst lo hi : Rat} {loop now cycles : Int} {mode : ZnMode} {l : List (Rat × Int)} {ts : List (Tuner Rat)} (hc : 2 ≤ cycles)
    (h : (Tuner.start target hyst loop lo hi mode cycles now).run l = .ok ts) (hall : ∀ u ∈ ts.dropLast, u.finished = false) (u : Tuner Rat) (hu : ts.getLast? = some u)
    (hfin : u.finished = true) :
    ∃ ts', (Tuner.start target hyst loop lo hi mode (cycles + 1) now).run l = .ok ts' ∧ (gainsSeen 0 ts').length = cycles ∧
      u.kp * (cycles - 1) = (((gainsSeen 0 ts').drop 2).map (·.1)).sum ∧
      u.ki * (cycles - 1) = (((gainsSeen 0 ts').drop 2).map (·.2.1)).sum ∧
      u.kd * (cycles - 1) = (((gainsSeen 0 ts').drop 2).map (·.2.2)).sum := by
  have hf : (Tuner.start target hyst loop lo hi mode cycles now).finished = false := by
    simp [Tuner.start, finished]; omega
  obtain ⟨ts', e1, e2, e3, e4, e5, e6⟩ := run_more l _ ts hf h hall
  have e : ts.getLastD (Tuner.start target hyst loop lo hi mode cycles now) = u := by
    rw [List.getLastD_eq_getLast?, hu]; rfl
  rw [e] at e3 e4 e5 e6
  obtain ⟨s1, s2, s3, s4⟩ := run_sums l _ ts' (by exact le_rfl) e1 e2
  rw [e3] at s1
  rw [e4] at s2
  rw [e5] at s3
  rw [e6] at s4
  change u.pAverage = 0 + ((List.drop 2 (gainsSeen 0 ts')).map _).sum at s1
  change u.iAverage = 0 + ((List.drop 2 (gainsSeen 0 ts')).map _).sum at s2
  change u.dAverage = 0 + ((List.drop 2 (gainsSeen 0 ts')).map _).sum at s3
  change u.cycle = 0 + ((gainsSeen 0 ts').length : Int) at s4
  rw [zero_add] at s1 s2 s3 s4
  have hlast := run_last l _ ts h u hu
  obtain ⟨g1, g2, g3⟩ := hlast.1 hfin
  have hcyc : u.cycle = cycles := by
    have := hlast.2 hf hall
    simp only [finished, decide_eq_true_eq] at hfin
    change u.cycle ≤ cycles ∧ u.cycles = cycles at this
    omega
  have hne : (cycles : Rat) - 1 ≠ 0 := by
    have : (2 : Rat) ≤ cycles := by exact_mod_cast hc
    linarith
  refine ⟨ts', e1, by omega, ?_, ?_, ?_⟩
  · rw [g1, hcyc, ← s1]; simp only [Arith.div, Arith.ofRat]; field_simp
  · rw [g2, hcyc, ← s2]; simp only [Arith.div, Arith.ofRat]; field_simp
  · rw [g3, hcyc, ← s3]; simp only [Arith.div, Arith.ofRat]; field_simp

/-- C47 is false for the average, whatever the number of cycles: if all cycles give the same gain, the tuner reports another one. -/
theorem C47_average_counterexample {target hyst lo hi : Rat} {loop now cycles : Int} {mode : ZnMode} {l : List (Rat × Int)} {ts ts' : List (Tuner Rat)} (hc : 2 ≤ cycles)
    (h : (Tuner.start target hyst loop lo hi mode cycles now).run l = .ok ts) (hall : ∀ u ∈ ts.dropLast, u.finished = false) (u : Tuner Rat) (hu : ts.getLast? = some u)
    (hfin : u.finished = true) (h' : (Tuner.start target hyst loop lo hi mode (cycles + 1) now).run l = .ok ts') {g : Rat} (hg : g ≠ 0)
    (hsame : ∀ x ∈ gainsSeen 0 ts', x.1 = g) : u.kp ≠ g := by
  obtain ⟨ts2, e1, e2, e3, -⟩ := C47_average_partial hc h hall u hu hfin
  rw [h'] at e1
  cases e1
  have hsum : (((gainsSeen 0 ts').drop 2).map (·.1)).sum = (cycles - 2) * g := by
    have hrep : ((gainsSeen 0 ts').drop 2).map (·.1) = List.replicate ((gainsSeen 0 ts').length - 2) g := by
      rw [List.eq_replicate_iff]
      refine ⟨by simp, fun x hx => ?_⟩
      obtain ⟨y, hy, rfl⟩ := List.mem_map.mp hx
      exact hsame y (List.mem_of_mem_drop hy)
    rw [hrep, List.sum_replicate, nsmul_eq_mul]
    have : (((gainsSeen 0 ts').length - 2 : Nat) : Rat) = (cycles : Rat) - 2 := by
      have h2 : 2 ≤ (gainsSeen 0 ts').length := by omega
      rw [Nat.cast_sub h2, ← e2]
      simp
    rw [this]
  rw [hsum] at e3
  rintro rfl
  have : u.kp * 1 = 0 := by linarith
  exact hg (by linarith)

/-- Three equal cycles: the gain of each is 40800/(33·π·...) but the tuner reports half of it. -/
example : (do
    let cycle (k : Int) : List (Rat × Int) := [(20, k), (60, k + 100), (60, k + 200), (40, k + 300)]
    let l := (0, 0) :: cycle 0 ++ (45, 400) :: cycle 1000 ++ (45, 1400) :: cycle 2000
    let ts ← (Tuner.start (50 : Rat) 1 100 0 255 .less 3 0).run l
    let ts' ← (Tuner.start (50 : Rat) 1 100 0 255 .less 4 0).run l
    return ((ts.getLast?.map (·.finished)), ts.dropLast.map (·.finished) == List.replicate 14 false, (gainsSeen 0 ts').length,
      (ts.getLast?.map fun u => 2 * u.kp) == (gainsSeen 0 ts')[2]?.map (·.1)) : Res (Option Bool × Bool × Nat × Bool)) = .ok (some true, true, 3, true) := by decide +kernel

/-- C47 for a single cycle, in single precision: the gains are 0 divided by 0. -/
theorem C47_single_counterexample : (do
    let ts ← (Tuner.start (Fl.ofRat 50) (Fl.ofRat 1) 100 (Fl.ofRat 0) (Fl.ofRat 255) .less 1 0).run (swing.map fun r => (Fl.ofRat r.1, r.2))
    return (ts[3]?.map fun u => (u.finished, u.kp, u.ki, u.kd)) : Res (Option (Bool × Fl × Fl × Fl))) = .ok (some (true, .nan, .nan, .nan)) := by decide +kernel

/-! ## C81: the gains of a cycle -/

theorem foldl_max_le {l : List Rat} : ∀ {a M : Rat}, a ≤ M → (∀ x ∈ l, x ≤ M) → (M ∈ l ∨ a = M) → l.foldl max a = M := by
  induction l with
  | nil => intro a M _ _ h; simpa using h
  | cons x l ih =>
    intro a M h1 h2 h3
    rw [List.foldl_cons]
    refine ih (max_le h1 (h2 x List.mem_cons_self)) (fun y hy => h2 y (List.mem_cons_of_mem _ hy)) ?_
    rcases h3 with h3 | h3
    · rcases List.mem_cons.mp h3 with rfl | h3
      · exact Or.inr (max_eq_right h1)
      · exact Or.inl h3
    · subst h3
      exact Or.inr (max_eq_left (h2 x List.mem_cons_self))

theorem foldl_min_le {l : List Rat} : ∀ {a m : Rat}, m ≤ a → (∀ x ∈ l, m ≤ x) → (m ∈ l ∨ a = m) → l.foldl min a = m := by
  induction l with
  | nil => intro a M _ _ h; simpa using h
  | cons x l ih =>
    intro a m h1 h2 h3
    rw [List.foldl_cons]
    refine ih (le_min h1 (h2 x List.mem_cons_self)) (fun y hy => h2 y (List.mem_cons_of_mem _ hy)) ?_
    rcases h3 with h3 | h3
    · rcases List.mem_cons.mp h3 with rfl | h3
      · exact Or.inr (min_eq_right h1)
      · exact Or.inl h3
    · subst h3
      exact Or.inr (min_eq_left (h2 x List.mem_cons_self))

/-- A tuner at the beginning of a cycle. -/
def AtStart (t : Tuner Rat) : Prop := t.on = true ∧ t.target ≤ t.min ∧ 0 ≤ t.t2 ∧ t.finished = false

/-- C81 in exact arithmetic, up to 2^24 ms: in a cycle, the input stays below the band's upper limit (`xs`), rises above it (`x1`, at `m1`), stays
above its lower limit (`ys`) and falls below it (`y1`, at `m2`). Then the gains are those of relay tuning with the period from the
end of the cycle before and half the difference of the highest and lowest reading of the cycle, and the next cycle begins. Missing:
the case that the highest reading is `x1` (see `C81_peak_counterexample`; `C81_exact` for all cases). Single precision: `C81_single`. -/
theorem C81_gains_partial {t : Tuner Rat} (ht : AtStart t) (hh : 0 ≤ t.hysteresis) {xs ys : List (Rat × Int)} {x1 y1 : Rat} {m1 m2 : Int}
    (hxs : ∀ r ∈ xs, r.1 ≤ t.target + t.hysteresis) (hx1 : t.target + t.hysteresis < x1) (hys : ∀ r ∈ ys, t.target - t.hysteresis ≤ r.1)
    (hy1 : y1 < t.target - t.hysteresis) (hm : t.t2 ≤ m1) (hm' : m1 ≤ m2) (hm2 : m2 ≤ 2 ^ 24) (hcyc : -2 ^ 31 ≤ t.cycle ∧ t.cycle + 1 < 2 ^ 31)
    {hi lo : Rat} (hhi : hi ∈ ys.map Prod.fst ∧ ∀ r ∈ xs ++ [(x1, m1)] ++ ys ++ [(y1, m2)], r.1 ≤ hi)
    (hlo : lo ∈ (xs ++ [(x1, m1)] ++ ys ++ [(y1, m2)]).map Prod.fst ∧ ∀ r ∈ xs ++ [(x1, m1)] ++ ys ++ [(y1, m2)], lo ≤ r.1) :
    ∃ u : Tuner Rat, t.play (xs ++ [(x1, m1)] ++ ys ++ [(y1, m2)]) = .ok u ∧ u.cycle = t.cycle + 1 ∧ u.t2 = m2 ∧
      (u.finished = false → AtStart u ∧
        (u.kp, u.ki, u.kd) = relayGains t.mode ((t.maxOutput - t.minOutput) / 2) ((hi - lo) / 2) ((m2 - t.t2 : Int) : Rat) t.loopInterval) := by
  obtain ⟨t1, t2, t3, t4⟩ := ht
  have e1 := play_still xs t t4 (by intro r hr; rw [t1, if_pos rfl, not_lt]; exact hxs r hr)
  have e2 := step_off (t := { t with max := (xs.map Prod.fst).foldl max t.max, min := (xs.map Prod.fst).foldl min t.min }) (x := x1) (ms := m1) t4 t1 hh hx1 t3 hm (by omega)
  have e3 := play_still ys { t with on := false, outputValue := t.minOutput, t1 := m1, tHigh := m1 - t.t2, max := t.target, min := min ((xs.map Prod.fst).foldl min t.min) x1 }
    t4 (by intro r hr; rw [if_neg (by simp)]; exact not_lt.mpr (hys r hr))
  obtain ⟨u, f1, f2, f3, f4, f5, f6, f7, f8, f9⟩ := step_on (t := { t with on := false, outputValue := t.minOutput, t1 := m1, tHigh := m1 - t.t2, max := (ys.map Prod.fst).foldl max t.target, min := (ys.map Prod.fst).foldl min (min ((xs.map Prod.fst).foldl min t.min) x1) })
    (x := y1) (ms := m2) rfl hy1 (by simp only; omega) hm' hm2 (by simp only; omega) (by simp only; omega) (by simp only; omega) hcyc.2
  refine ⟨finish u, ?_, ?_, ?_, ?_⟩
  · rw [play_append, play_append, play_append, e1, res_bind_ok]
    simp only [play]
    rw [e2, res_bind_ok, res_bind_ok, e3, res_bind_ok, f1]
    rfl
  · rw [(finish_cycle u).1, f5]
  · unfold finish; split <;> exact f4
  · intro hfin
    have hu : u.finished = false := (finish_cycle u).2.2.1 ▸ hfin
    have hfu : finish u = u := by unfold finish; rw [if_neg (by simp [hu])]
    rw [hfu]
    refine ⟨⟨f2, by rw [f3, f7], by rw [f4]; omega, hu⟩, ?_⟩
    rw [f9]
    have ex : max ((ys.map Prod.fst).foldl max t.target) y1 = hi := by
      have hx1hi : x1 ≤ hi := hhi.2 (x1, m1) (by simp)
      have hy1hi : y1 ≤ hi := hhi.2 (y1, m2) (by simp)
      rw [foldl_max_le (M := hi) (by linarith) ?_ (Or.inl hhi.1), max_eq_left hy1hi]
      intro x hx
      obtain ⟨r, hr, rfl⟩ := List.mem_map.mp hx
      exact hhi.2 r (by simp [hr])
    have en : min ((ys.map Prod.fst).foldl min (min ((xs.map Prod.fst).foldl min t.min) x1)) y1 = lo := by
      have : min ((ys.map Prod.fst).foldl min (min ((xs.map Prod.fst).foldl min t.min) x1)) y1 = ((xs ++ [(x1, m1)] ++ ys ++ [(y1, m2)]).map Prod.fst).foldl min t.min := by
        simp [List.foldl_append]
      rw [this]
      have hylo : lo ≤ y1 := hlo.2 (y1, m2) (by simp)
      refine foldl_min_le (by linarith) ?_ (Or.inl hlo.1)
      intro x hx
      obtain ⟨r, hr, rfl⟩ := List.mem_map.mp hx
      exact hlo.2 r hr
    simp only
    rw [ex, en]
    congr 2
    omega

/-- A tuner that has just been started is at the beginning of a cycle. -/
theorem C81_start {target hyst lo hi : Rat} {loop now cycles : Int} {mode : ZnMode} (h1 : 1 ≤ cycles) (h2 : target ≤ 1000000000000) (h3 : 0 ≤ now) :
    AtStart (Tuner.start target hyst loop lo hi mode cycles now) ∧ (Tuner.start target hyst loop lo hi mode cycles now).t2 = now := by
  refine ⟨⟨rfl, h2, h3, ?_⟩, rfl⟩
  simp [Tuner.start, finished]; omega

/-- An oscillation between 40 and 60 with a period of 400 ms. -/
example : ((Tuner.start (50 : Rat) 1 100 0 255 .basic 3 1000).play [(45, 1000), (55, 1100), (60, 1200), (50, 1300), (40, 1400)]).map (fun u => (u.kp, u.ki, u.kd)) =
    .ok (relayGains .basic (255 / 2) 10 400 100) := by decide +kernel

/-- C81 is false if the highest reading is the one that switches the output off: readings from 40 to 60 give the gains for an
amplitude of 5 instead of 10, twice as much as they should be. -/
theorem C81_peak_counterexample :
    ((Tuner.start (50 : Rat) 1 100 0 255 .basic 3 1000).play [(45, 1000), (60, 1200), (50, 1300), (40, 1400)]).map (fun u => (u.kp, u.ki, u.kd)) =
      .ok (relayGains .basic (255 / 2) 5 400 100) ∧ (relayGains .basic (255 / 2) 5 400 100).1 = 2 * (relayGains .basic (255 / 2) 10 400 100).1 := by decide +kernel

end Spine
