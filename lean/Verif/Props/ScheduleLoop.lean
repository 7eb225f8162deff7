import Verif.Model.ScheduleLoop
import Verif.Props.Schedule
/-!
# C157: sleeping from block to block
-/

namespace Spine

open Schedule

variable {F : Type} [Arith F]

/-- No two blocks are active at the same time of day. -/
def Apart {F : Type} (plan : List (Block F)) : Prop := ∀ t, ∀ x ∈ plan, ∀ y ∈ plan, covers x t = true → covers y t = true → x = y

/-- Some block is active at time of day `t`. -/
def Busy {F : Type} (plan : List (Block F)) (t : Int) : Prop := ∃ x ∈ plan, covers x t = true

/-- What a log of (time, value set) shows at time `u`: the value of the last entry not after `u`. -/
def shown {F : Type} : List (Int × F) → Int → Option F
  | [], _ => none
  | (t, v) :: rest, u => if u < t then none else (shown rest u).or (some v)

namespace Schedule

omit [Arith F] in
/-- A block active at `u` was active at `t` too, unless it started in between. -/
theorem covers_back {x : Block F} {t u : Int} (hs : 0 ≤ x.start ∧ x.start < daySeconds) (h0 : 0 ≤ t) (h1 : t ≤ u) (h2 : u < daySeconds)
    (hn : x.start ≤ t ∨ u < x.start) (hc : covers x u = true) : covers x t = true := by
  unfold covers daySeconds at *
  rw [decide_eq_true_eq] at *
  omega

theorem planned_mem {plan : List (Block F)} {t : Int} {x : Block F} (hap : Apart plan) (hx : x ∈ plan) (hc : covers x t = true) :
    planned plan t = x.value := by
  rw [planned]
  cases e : plan.find? (covers · t) with
  | none => exact absurd hc (by simpa using List.find?_eq_none.mp e x hx)
  | some y => rw [hap t y (List.mem_of_find?_eq_some e) x hx (by simpa using List.find?_some e) hc]

theorem planned_idle {plan : List (Block F)} {t : Int} (h : ¬ Busy plan t) : planned plan t = fzero := by
  rw [planned]
  cases e : plan.find? (covers · t) with
  | none => rfl
  | some y => exact absurd ⟨y, List.mem_of_find?_eq_some e, by simpa using List.find?_some e⟩ h

/-- Until the next start, the plan either keeps its value or is idle. -/
theorem planned_keeps {plan : List (Block F)} {t n u : Int} (hs : ∀ x ∈ plan, 0 ≤ x.start ∧ x.start < daySeconds) (hap : Apart plan)
    (hn : IsNextStart plan t n) (h0 : 0 ≤ t) (h1 : t ≤ u) (h2 : u < n) (h3 : u < daySeconds) (hb : Busy plan u) :
    planned plan u = planned plan t := by
  obtain ⟨x, hx, hc⟩ := hb
  have : covers x t = true := by
    refine covers_back (hs x hx) h0 h1 h3 ?_ hc
    by_cases h : t < x.start
    · exact .inr (h2.trans_le (hn.1 x hx h))
    · exact .inl (not_lt.mp h)
  rw [planned_mem hap hx hc, planned_mem hap hx this]

/-- The next start is after `t` and not after the end of the day. -/
theorem next_range {plan : List (Block F)} {t n : Int} (hs : ∀ x ∈ plan, 0 ≤ x.start ∧ x.start < daySeconds) (h1 : t < daySeconds)
    (hn : IsNextStart plan t n) : t < n ∧ n ≤ daySeconds := by
  rcases hn.2 with ⟨x, hx, rfl, h⟩ | ⟨rfl, -⟩
  · exact ⟨h, (hs x hx).2.le⟩
  · exact ⟨h1, le_rfl⟩

/-- The number of blocks that start after `t` goes down at each waking. -/
theorem count_drops {plan : List (Block F)} {t n : Int} (hlt : t < n) (hx : ∃ x ∈ plan, x.start = n) :
    plan.countP (fun x => decide (n < x.start)) < plan.countP (fun x => decide (t < x.start)) := by
  obtain ⟨x, hx, rfl⟩ := hx
  induction plan with
  | nil => simp at hx
  | cons y ys ih =>
    rw [List.countP_cons, List.countP_cons]
    have hmono : ys.countP (fun z => decide (x.start < z.start)) ≤ ys.countP (fun z => decide (t < z.start)) := by
      refine List.countP_mono_left fun z _ hz => ?_
      simp only [decide_eq_true_eq] at *
      omega
    rcases List.mem_cons.mp hx with rfl | hx
    · simp [hlt]; omega
    · have := ih hx
      by_cases h : x.start < y.start
      · have : t < y.start := by omega
        simp [*]
      · by_cases h' : t < y.start <;> simp [h, h'] <;> omega

theorem lt_day {n : Int} : KTime.lt .base .hour n 24 = .ok (decide (n < 86400)) := by
  rw [KTime.lt, fromHour]; rfl

end Schedule

/-- C157, for a waking: until the time `start_of_next_block` gives, `value_at` changes only by dropping to 0 in a gap between blocks.
Missing: that it does not change at all (`C157_gap_counterexample`), blocks in another order (`C157_order_counterexample`), and
blocks that overlap (`C157_overlap_counterexample`). -/
theorem C157_until_next_partial {plan s : List (Block F)} {t u n : Int} (h : create .debug plan = .ok s)
    (hs : ∀ x ∈ plan, 0 ≤ x.start ∧ x.start < daySeconds) (hord : plan.Pairwise (fun x y => x.start ≤ y.start)) (hap : Apart plan)
    (h0 : 0 ≤ t) (h1 : t < daySeconds) (hn : startOfNext s t = .ok n) (h2 : t ≤ u) (h3 : u < n) :
    valueAt s u = valueAt s t ∨ valueAt s u = .ok fzero ∧ ¬ Busy plan u := by
  have hsame := (create_spec h).1
  subst hsame
  obtain ⟨n', e, hnext⟩ := C53_next_partial (t := t) hs hord
  rw [e] at hn
  cases hn
  have hd := (next_range hs h1 hnext).2
  rw [C52_value_at_partial h hs (h0.trans h2) (h3.trans_le hd), C52_value_at_partial h hs h0 h1]
  by_cases hb : Busy s u
  · exact .inl (by rw [planned_keeps hs hap hnext h0 h2 h3 (h3.trans_le hd) hb])
  · exact .inr ⟨by rw [planned_idle hb], hb⟩

/-- C157, for the day: with a plan in the order of its starts whose blocks neither overlap nor leave gaps, the program that sleeps from
start to start shows the planned value at every moment from when it is started to the end of the day, and wakes at most once for each
block.  Missing: plans with gaps, in another order or with overlaps, as above. -/
theorem C157_day_partial {plan s : List (Block F)} {t : Int} (h : create .debug plan = .ok s)
    (hs : ∀ x ∈ plan, 0 ≤ x.start ∧ x.start < daySeconds) (hord : plan.Pairwise (fun x y => x.start ≤ y.start)) (hap : Apart plan)
    (hfull : ∀ u, 0 ≤ u → u < daySeconds → Busy plan u) (h0 : 0 ≤ t) (h1 : t < daySeconds) :
    ∃ log : List (Int × F), follow s (plan.length + 1) t = .ok log ∧ log.length ≤ plan.length + 1 ∧
      ∀ u, t ≤ u → u < daySeconds → shown log u = some (planned plan u) := by
  have hsame := (create_spec h).1
  subst hsame
  suffices key : ∀ fuel t, 0 ≤ t → t < daySeconds → s.countP (fun x => decide (t < x.start)) < fuel →
      ∃ log : List (Int × F), follow s fuel t = .ok log ∧ log.length ≤ fuel ∧ (∀ u, u < t → shown log u = none) ∧
        ∀ u, t ≤ u → u < daySeconds → shown log u = some (planned s u) by
    obtain ⟨log, e1, e2, -, e3⟩ := key (s.length + 1) t h0 h1 (by have := List.countP_le_length (p := fun x : Block F => decide (t < x.start)) (l := s); omega)
    exact ⟨log, e1, e2, e3⟩
  intro fuel
  induction fuel with
  | zero => intro t _ _ hc; omega
  | succ fuel ih =>
    intro t h0 h1 hc
    obtain ⟨n, e, hnext⟩ := C53_next_partial (t := t) hs hord
    obtain ⟨hlt, hle⟩ := next_range hs h1 hnext
    have hkeep : ∀ u, t ≤ u → u < n → planned s u = planned s t := fun u hu hun =>
      planned_keeps hs hap hnext h0 hu hun (hun.trans_le hle) (hfull u (h0.trans hu) (hun.trans_le hle))
    rw [follow, C52_value_at_partial h hs h0 h1, res_bind_ok, e, res_bind_ok, lt_day, res_bind_ok]
    by_cases hn : n < daySeconds
    · have hx : ∃ x ∈ s, x.start = n := by
        rcases hnext.2 with ⟨x, hx, e, -⟩ | ⟨e, -⟩
        · exact ⟨x, hx, e⟩
        · omega
      have hdrop := count_drops hlt hx
      obtain ⟨log, e1, e2, e3, e4⟩ := ih n (by omega) hn (by omega)
      refine ⟨(t, planned s t) :: log, ?_, by simpa using e2, fun u hu => by simp [shown, hu], ?_⟩
      · rw [show decide (n < 86400) = true from decide_eq_true hn, e1]; rfl
      · intro u hu hud
        rw [shown, if_neg (by omega)]
        by_cases hun : u < n
        · rw [e3 u hun, hkeep u hu hun]; rfl
        · rw [e4 u (by omega) hud]; rfl
    · have hday : n = daySeconds := by omega
      refine ⟨[(t, planned s t)], ?_, by simp, fun u hu => by simp [shown, hu], ?_⟩
      · rw [show decide (n < 86400) = false from decide_eq_false hn]; rfl
      · intro u hu hud
        rw [shown, if_neg (by omega), hkeep u hu (by omega)]; rfl

/-- Night from 22:00 to 6:00, day from 6:00 to 22:00. -/
def fullPlan : List (Block Rat) := [⟨21600, 57600, 2⟩, ⟨79200, 28800, 1⟩]

theorem fullPlan_meets : create .debug fullPlan = .ok fullPlan ∧ (∀ x ∈ fullPlan, 0 ≤ x.start ∧ x.start < daySeconds) ∧
    fullPlan.Pairwise (fun x y => x.start ≤ y.start) ∧ Apart fullPlan ∧ ∀ u, 0 ≤ u → u < daySeconds → Busy fullPlan u := by
  refine ⟨by decide +kernel, by decide +kernel, by decide +kernel, ?_, ?_⟩
  · intro t x hx y hy h1 h2
    have c1 : covers (⟨21600, 57600, 2⟩ : Block Rat) t = true ↔ (t - 21600) % 86400 < 57600 := decide_eq_true_iff
    have c2 : covers (⟨79200, 28800, 1⟩ : Block Rat) t = true ↔ (t - 79200) % 86400 < 28800 := decide_eq_true_iff
    simp only [fullPlan, List.mem_cons, List.not_mem_nil, or_false] at hx hy
    rcases hx with rfl | rfl <;> rcases hy with rfl | rfl
    · rfl
    · rw [c1] at h1; rw [c2] at h2; omega
    · rw [c2] at h1; rw [c1] at h2; omega
    · rfl
  · intro u h0 h1
    unfold daySeconds at h1
    by_cases h : 21600 ≤ u ∧ u < 79200
    · exact ⟨⟨21600, 57600, 2⟩, by simp [fullPlan], decide_eq_true (show (u - 21600) % 86400 < 57600 by omega)⟩
    · exact ⟨⟨79200, 28800, 1⟩, by simp [fullPlan], decide_eq_true (show (u - 79200) % 86400 < 28800 by omega)⟩

example : follow fullPlan 3 0 = .ok [(0, 1), (21600, 2), (79200, 1)] := by decide +kernel

/-- C157 is false with a gap: from 10:00 to 22:00 the plan is idle and `value_at` gives 0, but the program woken at 6:00 sleeps until
22:00 and shows 2 all along. -/
theorem C157_gap_counterexample : create .debug nightPlan.reverse = .ok nightPlan.reverse ∧
    follow nightPlan.reverse 3 21600 = .ok [(21600, 2), (79200, 1)] ∧ valueAt nightPlan.reverse 36000 = .ok 0 ∧
    shown [(21600, (2 : Rat)), (79200, 1)] 36000 = some 2 ∧ shown [(21600, (2 : Rat)), (79200, 1)] 79199 = some 2 := by decide +kernel

/-- C157 is false in another order: from midnight on, the full plan listed with the night first is slept through until 22:00. -/
theorem C157_order_counterexample : create .debug fullPlan.reverse = .ok fullPlan.reverse ∧
    follow fullPlan.reverse 3 0 = .ok [(0, 1), (79200, 1)] ∧ valueAt fullPlan.reverse 21600 = .ok 2 ∧
    shown [(0, (1 : Rat)), (79200, 1)] 21600 = some 1 := by decide +kernel

/-- C157 is false with overlaps: when the first of two overlapping blocks ends, the second one's value applies without a start. -/
theorem C157_overlap_counterexample : create .debug [(⟨0, 100, 1⟩ : Block Rat), ⟨50, 100, 2⟩] = .ok [⟨0, 100, 1⟩, ⟨50, 100, 2⟩] ∧
    startOfNext [(⟨0, 100, 1⟩ : Block Rat), ⟨50, 100, 2⟩] 50 = .ok 86400 ∧
    [50, 99, 100].map (valueAt [(⟨0, 100, 1⟩ : Block Rat), ⟨50, 100, 2⟩]) = [.ok 1, .ok 1, .ok 2] := by decide +kernel

end Spine
