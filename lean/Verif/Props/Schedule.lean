import Verif.Spec.Day
import Verif.Proofs.Timers
import Verif.Core.Bind
/-!
# C52, C53: the daily schedule
-/

namespace Spine

open Schedule

variable {F : Type} [Arith F]

namespace Schedule

theorem fromHour : KTime.fromOther .hour .base 24 = .ok 86400 := by decide +kernel

theorem add_small {a b : Int} (ha : |a| ≤ 2 ^ 24) (hb : |b| ≤ 2 ^ 24) : KTime.add .base .base a b = .ok (a + b) := by
  rw [KTime.add, fromOther_small _ hb, res_bind_ok, i64_small]
  exact (abs_add_le a b).trans (by omega)

theorem ge_small {a b : Int} (hb : |b| ≤ 2 ^ 24) : KTime.ge .base .base a b = .ok (decide (a ≥ b)) := by
  rw [KTime.ge, fromOther_small _ hb]; rfl

theorem lt_small {a b : Int} (hb : |b| ≤ 2 ^ 24) : KTime.lt .base .base a b = .ok (decide (a < b)) := by
  rw [KTime.lt, fromOther_small _ hb]; rfl

/-- A block of a day: `value_at`'s two tests. -/
theorem tests {x : Block F} {t : Int} (h1 : 0 ≤ x.start) (h2 : x.start < 86400) (h3 : 0 < x.duration) (h4 : x.duration ≤ 86400) (h5 : 0 ≤ t) (h6 : t < 86400) :
    isToday x t = .ok (decide (x.start ≤ t ∧ t < x.start + x.duration)) ∧ isAfterMidnight x t = .ok (decide (t + 86400 < x.start + x.duration)) := by
  have a1 : |x.start| ≤ 2 ^ 24 := by rw [abs_le]; omega
  have a2 : |x.duration| ≤ 2 ^ 24 := by rw [abs_le]; omega
  have a3 : |x.start + x.duration| ≤ 2 ^ 24 := by rw [abs_le]; omega
  constructor
  · rw [isToday, ge_small a1, res_bind_ok, add_small a1 a2]
    by_cases h : x.start ≤ t
    · rw [if_pos (by simpa using h), res_bind_ok, lt_small a3]
      simp [h]
    · rw [if_neg (by simpa using h)]
      simp [h]
  · rw [isAfterMidnight, add_small a1 a2, res_bind_ok, KTime.gt, fromHour, res_bind_ok, res_pure, res_bind_ok]
    by_cases h : x.start + x.duration > 86400
    · rw [if_pos (by simpa using h), res_bind_ok, KTime.sub, fromHour, res_bind_ok, i64_small (by rw [abs_le]; omega), res_bind_ok,
        lt_small (by rw [abs_le]; omega)]
      congr 1
      exact decide_eq_decide.mpr (by omega)
    · rw [if_neg (by simpa using h), res_pure]
      congr 1
      symm
      exact decide_eq_false (by omega)

theorem total_spec {xs : List (Block F)} : ∀ {s u : Int}, total .debug s xs = .ok u → s ≤ u ∧ ∀ x ∈ xs, 0 < x.duration ∧ s + near x.duration ≤ u := by
  induction xs with
  | nil => intro s u h; cases h; exact ⟨le_rfl, by simp⟩
  | cons x xs ih =>
    intro s u h
    rw [total] at h
    obtain ⟨c, hc, h⟩ := res_bind h
    obtain ⟨_, ha, h⟩ := res_bind h
    obtain ⟨v, hv, hrest⟩ := res_bind h
    rw [KTime.gt, fromOther_small _ (by norm_num)] at hc
    cases hc
    have hpos : 0 < x.duration := by
      by_contra hn
      rw [show decide (x.duration > 0) = false from decide_eq_false hn, spnAssert_debug_false] at ha
      cases ha
    rw [KTime.add, fromOther_same] at hv
    obtain ⟨w, hw, hv⟩ := res_bind hv
    have e1 := i64_eq hw
    have e2 := i64_eq hv
    have hn : 1 ≤ near x.duration := by
      have := near_mono (show (1 : Int) ≤ x.duration by omega)
      rwa [near_eq (by norm_num)] at this
    obtain ⟨i1, i2⟩ := ih hrest
    refine ⟨by omega, ?_⟩
    intro y hy
    rcases List.mem_cons.mp hy with rfl | hy
    · exact ⟨hpos, by omega⟩
    · have := i2 y hy
      exact ⟨this.1, by omega⟩

/-- What the constructor checks. -/
theorem create_spec {xs s : List (Block F)} (h : create .debug xs = .ok s) : s = xs ∧ ∀ x ∈ xs, 0 < x.duration ∧ x.duration ≤ 86400 := by
  rw [create] at h
  obtain ⟨u, hu, h⟩ := res_bind h
  obtain ⟨c, hc, h⟩ := res_bind h
  obtain ⟨_, ha, h⟩ := res_bind h
  cases h
  refine ⟨rfl, ?_⟩
  rw [KTime.le, fromHour] at hc
  cases hc
  have hle : u ≤ 86400 := by
    by_contra hn
    rw [show decide (u ≤ 86400) = false from decide_eq_false hn, spnAssert_debug_false] at ha
    cases ha
  intro x hx
  obtain ⟨-, h2⟩ := total_spec hu
  obtain ⟨h3, h4⟩ := h2 x hx
  refine ⟨h3, ?_⟩
  by_contra hn
  have := near_mono (show (86401 : Int) ≤ x.duration by omega)
  rw [near_eq (v := 86401) (by norm_num)] at this
  omega

end Schedule

/-- C52: with blocks that the constructor accepts and that start on the day, `value_at` gives, at every time of day, the value of the
first block active at that time, and 0 if there is none. Missing: blocks that start elsewhere (`C52_start_counterexample`). -/
theorem C52_value_at_partial {plan s : List (Block F)} {t : Int} (h : create .debug plan = .ok s) (hs : ∀ x ∈ plan, 0 ≤ x.start ∧ x.start < daySeconds)
    (h0 : 0 ≤ t) (h1 : t < daySeconds) : valueAt s t = .ok (planned plan t) := by
  obtain ⟨rfl, hd⟩ := create_spec h
  clear h
  unfold daySeconds at *
  induction s with
  | nil => rfl
  | cons x xs ih =>
    obtain ⟨d1, d2⟩ := hd x (by simp)
    obtain ⟨s1, s2⟩ := hs x (by simp)
    have r := ih (fun y hy => hs y (by simp [hy])) (fun y hy => hd y (by simp [hy]))
    obtain ⟨e1, e2⟩ := tests s1 s2 d1 d2 h0 h1
    rw [valueAt, e1, res_bind_ok, e2, res_bind_ok]
    have hc : covers x t = (decide (x.start ≤ t ∧ t < x.start + x.duration) || decide (t + 86400 < x.start + x.duration)) := by
      rw [← Bool.decide_or, covers, daySeconds, decide_eq_decide]
      omega
    rw [planned, List.find?_cons, hc]
    cases decide (x.start ≤ t ∧ t < x.start + x.duration) || decide (t + 86400 < x.start + x.duration) with
    | true => rfl
    | false => exact r

/-- C52 when the blocks do not overlap: every block's value applies at every time it covers, whatever the order of the blocks. -/
theorem C52_disjoint {plan s : List (Block F)} {t : Int} {x : Block F} (h : create .debug plan = .ok s) (hs : ∀ x ∈ plan, 0 ≤ x.start ∧ x.start < daySeconds)
    (h0 : 0 ≤ t) (h1 : t < daySeconds) (hx : x ∈ plan) (hc : covers x t = true) (hdis : ∀ y ∈ plan, covers y t = true → y = x) :
    valueAt s t = .ok x.value := by
  rw [C52_value_at_partial h hs h0 h1, planned]
  cases e : plan.find? (covers · t) with
  | none => exact absurd hc (by simpa using List.find?_eq_none.mp e x hx)
  | some y => rw [hdis y (List.mem_of_find?_eq_some e) (by simpa using List.find?_some e)]

/-- From 22:00 to 2:00 the value is 1, from 6:00 to 10:00 it is 2. -/
def nightPlan : List (Block Rat) := [⟨79200, 14400, 1⟩, ⟨21600, 14400, 2⟩]

example : create .debug nightPlan = .ok nightPlan ∧ [0, 7199, 7200, 21600, 36000, 79199, 79200, 86399].map (valueAt nightPlan) =
    [.ok 1, .ok 1, .ok 0, .ok 2, .ok 0, .ok 0, .ok 1, .ok 1] := by decide +kernel

/-- The constructor does not check the start: a block of ten seconds that begins at 100000 s is active for the first hours of the day. -/
theorem C52_start_counterexample : create .debug [(⟨100000, 10, 1⟩ : Block Rat)] = .ok [⟨100000, 10, 1⟩] ∧
    valueAt [(⟨100000, 10, 1⟩ : Block Rat)] 0 = .ok 1 ∧ valueAt [(⟨100000, 10, 1⟩ : Block Rat)] 13609 = .ok 1 := by decide +kernel

/-- Nor does it check that blocks do not overlap; the first one wins. -/
example : create .debug [(⟨0, 100, 1⟩ : Block Rat), ⟨50, 100, 2⟩] = .ok [⟨0, 100, 1⟩, ⟨50, 100, 2⟩] ∧
    [49, 50, 99, 100, 150].map (valueAt [(⟨0, 100, 1⟩ : Block Rat), ⟨50, 100, 2⟩]) = [.ok 1, .ok 1, .ok 1, .ok 2, .ok 0] := by decide +kernel

omit [Arith F] in
/-- What `start_of_next_block` does in any order of blocks: it gives the first listed start after `t`. -/
theorem startOfNext_spec {plan : List (Block F)} {t : Int} (hs : ∀ x ∈ plan, 0 ≤ x.start ∧ x.start < daySeconds) :
    startOfNext plan t = .ok (((plan.map Block.start).find? (fun s => decide (t < s))).getD daySeconds) := by
  induction plan with
  | nil => exact fromHour
  | cons x xs ih =>
    have r := ih (fun y hy => hs y (by simp [hy]))
    obtain ⟨s1, s2⟩ := hs x (by simp)
    unfold daySeconds at s2
    rw [startOfNext, lt_small (by rw [abs_le]; omega), res_bind_ok, List.map_cons, List.find?_cons]
    by_cases h : t < x.start
    · simp [h]
    · simpa [h] using r

/-- C53 for blocks listed in the order of their starts. Missing: other orders, see `C53_order_counterexample`. -/
theorem C53_next_partial {plan : List (Block F)} {t : Int} (hs : ∀ x ∈ plan, 0 ≤ x.start ∧ x.start < daySeconds)
    (hord : plan.Pairwise (fun x y => x.start ≤ y.start)) : ∃ n, startOfNext plan t = .ok n ∧ IsNextStart plan t n := by
  refine ⟨_, startOfNext_spec hs, ?_⟩
  induction plan with
  | nil => exact ⟨by simp, .inr ⟨rfl, by simp⟩⟩
  | cons x xs ih =>
    have r := ih (fun y hy => hs y (by simp [hy])) hord.of_cons
    obtain ⟨s1, s2⟩ := hs x (by simp)
    rw [List.map_cons, List.find?_cons]
    by_cases h : t < x.start
    · simp only [h, decide_true]
      refine ⟨?_, .inl ⟨x, by simp, rfl, h⟩⟩
      intro y hy _
      rcases List.mem_cons.mp hy with rfl | hy
      · exact le_rfl
      · exact List.rel_of_pairwise_cons hord hy
    · simp only [h, decide_false]
      obtain ⟨r1, r2⟩ := r
      refine ⟨?_, ?_⟩
      · intro y hy hty
        rcases List.mem_cons.mp hy with rfl | hy
        · exact absurd hty h
        · exact r1 y hy hty
      · rcases r2 with ⟨y, hy, e⟩ | ⟨e, hle⟩
        · exact .inl ⟨y, by simp [hy], e⟩
        · refine .inr ⟨e, ?_⟩
          intro y hy
          rcases List.mem_cons.mp hy with rfl | hy
          · exact not_lt.mp h
          · exact hle y hy

/-- C53 in any order: the result is a start after `t` or, if there is none, the end of the day. -/
theorem C53_some_start {plan : List (Block F)} {t : Int} (hs : ∀ x ∈ plan, 0 ≤ x.start ∧ x.start < daySeconds) :
    ∃ n, startOfNext plan t = .ok n ∧ ((∃ x ∈ plan, x.start = n ∧ t < n) ∨ n = daySeconds ∧ ∀ x ∈ plan, x.start ≤ t) := by
  refine ⟨_, startOfNext_spec hs, ?_⟩
  cases e : (plan.map Block.start).find? (fun s => decide (t < s)) with
  | none =>
    refine .inr ⟨rfl, ?_⟩
    intro x hx
    simpa using List.find?_eq_none.mp e x.start (List.mem_map_of_mem hx)
  | some s =>
    obtain ⟨x, hx, rfl⟩ := List.mem_map.mp (List.mem_of_find?_eq_some e)
    exact .inl ⟨x, hx, rfl, by simpa using List.find?_some e⟩

example : [0, 21600, 79199, 79200].map (startOfNext nightPlan.reverse) = [.ok 21600, .ok 79200, .ok 79200, .ok 86400] := by decide +kernel

/-- C53 is false for blocks in another order: after midnight, the next block is said to start at 22:00, not at 6:00. -/
theorem C53_order_counterexample : create .debug nightPlan = .ok nightPlan ∧ startOfNext nightPlan 0 = .ok 79200 ∧ ¬ IsNextStart nightPlan 0 79200 ∧
    IsNextStart nightPlan 0 21600 := by
  refine ⟨by decide +kernel, by decide +kernel, ?_, ?_⟩
  · intro h
    have := h.1 ⟨21600, 14400, 2⟩ (by simp [nightPlan]) (by norm_num)
    norm_num at this
  · refine ⟨?_, .inl ⟨⟨21600, 14400, 2⟩, by simp [nightPlan], rfl, by norm_num⟩⟩
    intro x hx _
    simp only [nightPlan, List.mem_cons, List.not_mem_nil, or_false] at hx
    rcases hx with rfl | rfl <;> norm_num

end Spine
