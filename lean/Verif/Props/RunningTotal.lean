import Verif.Props.MixedTimes
import Verif.Core.Bind
/-!
# Property C145: a total of times, kept in a variable
-/

namespace Spine

/-- A program that adds times in the unit `other`, one after another, to a variable in the unit `mine`. -/
def runningTotal (mine other : Mag) (v : Int) : List Int → Res Int
  | [] => .ok v
  | w :: ws => do runningTotal mine other (← KTime.addAssign mine other v w) ws

/-- **C145** within one unit: the total of times of up to 2^24 is exact. Missing: longer times (`C31_counterexample`). -/
theorem C145_exact_partial (m : Mag) : ∀ (ws : List Int) {v : Int}, |v| + 2 ^ 24 * ws.length < 2 ^ 63 → (∀ w ∈ ws, |w| ≤ 2 ^ 24) →
    runningTotal m m v ws = .ok (v + ws.sum)
  | [], v, _, _ => by simp [runningTotal]
  | w :: ws, v, hv, hw => by
    have h1 := hw w List.mem_cons_self
    have h2 : |v + w| ≤ |v| + |w| := abs_add_le v w
    rw [List.length_cons] at hv
    push_cast at hv
    have hi : InI64 (v + w) := by
      have := abs_le.mp h2
      have hl : (0 : Int) ≤ ws.length := Int.natCast_nonneg _
      unfold InI64; omega
    have ha : KTime.addAssign m m v w = .ok (v + w) := (C31_exact_partial m h1).1 hi
    rw [runningTotal, ha, res_bind_ok, C145_exact_partial m ws (by omega) fun x hx => hw x (List.mem_cons_of_mem _ hx), List.sum_cons, add_assoc]

/-- **C145** for any two units: the total is off by at most half a unit for every time added. Missing: nothing better holds (`C145_stalls_counterexample`); longer times. -/
theorem C145_drift_partial (mine other : Mag) : ∀ (ws : List Int) {v : Int}, |v| + 3000001 * ws.length ≤ 2 ^ 62 →
    (∀ w ∈ ws, |w| ≤ 3000000 ∧ other.per mine * |(w : Rat)| ≤ 3000000) →
    ∃ c, runningTotal mine other v ws = .ok c ∧ |(c : Rat) - (v + other.amount mine ws.sum)| ≤ ws.length / 2
  | [], v, _, _ => ⟨v, rfl, by simp [Mag.amount]⟩
  | w :: ws, v, hv, hw => by
    obtain ⟨h1, h2⟩ := hw w List.mem_cons_self
    rw [List.length_cons] at hv
    push_cast at hv
    have hl : (0 : Int) ≤ ws.length := Int.natCast_nonneg _
    obtain ⟨c, hc, he⟩ := (C124_sum_partial mine other (v := v) (by omega) h1 h2).1
    have hcv : |c| ≤ |v| + 3000001 := by
      have h3 : |other.amount mine w| ≤ 3000000 := by rw [Mag.amount, abs_mul, abs_of_pos (per_pos other mine)]; exact h2
      have h4 : |(c : Rat)| ≤ |(v : Rat)| + 3000001 := by
        rw [abs_le] at he h3
        have h5 := le_abs_self (v : Rat)
        have h6 := neg_abs_le (v : Rat)
        rw [abs_le]
        constructor <;> linarith
      exact_mod_cast h4
    obtain ⟨d, hd, he'⟩ := C145_drift_partial mine other ws (v := c) (by omega) fun x hx => hw x (List.mem_cons_of_mem _ hx)
    refine ⟨d, ?_, ?_⟩
    · rw [runningTotal, show KTime.addAssign mine other v w = .ok c from hc, res_bind_ok, hd]
    · have e : (d : Rat) - (v + other.amount mine (w :: ws).sum) = (d - (c + other.amount mine ws.sum)) + (c - (v + other.amount mine w)) := by
        simp only [Mag.amount, List.sum_cons]; push_cast; ring
      rw [e, List.length_cons]
      have := abs_add_le ((d : Rat) - (c + other.amount mine ws.sum)) (c - (v + other.amount mine w))
      push_cast
      linarith

/-- C145, undoing: subtracting what was added restores the variable, in any two units. -/
theorem C145_undo {mine other : Mag} {v w c : Int} (hv : InI64 v) (h : KTime.addAssign mine other v w = .ok c) : KTime.subAssign mine other c w = .ok v := by
  obtain ⟨r, hr, h⟩ := res_bind h
  have hc : c = v + r := by
    unfold i64 at h
    split at h <;> cases h
    rfl
  rw [KTime.subAssign, hr, res_bind_ok, hc, Int.add_sub_cancel, i64_ok hv]

/-- C145 is false: a variable in seconds never grows, however many times of up to 499 ms are added. -/
theorem C145_stalls_counterexample : ∀ (ws : List Int) {v : Int}, InI64 v → (∀ w ∈ ws, |w| ≤ 499) → runningTotal .base .milli v ws = .ok v
  | [], _, _, _ => rfl
  | w :: ws, v, hv, hw => by
    have h0 : KTime.fromOther .milli .base w = .ok 0 := by
      have h1 := hw w List.mem_cons_self
      obtain ⟨r, hr, he⟩ := C32_nearest_partial .milli .base (v := w) (by omega) (by
        have : (|w| : Rat) ≤ 499 := by exact_mod_cast h1
        norm_num [Mag.per, Mag.seconds]; linarith)
      have h2 : (|w| : Rat) ≤ 499 := by exact_mod_cast h1
      have h3 : |(r : Rat)| < 1 := by
        norm_num [Mag.per, Mag.seconds] at he
        rw [abs_le] at he h2
        rw [abs_lt]
        constructor <;> linarith
      have h4 : |r| < 1 := by exact_mod_cast h3
      have h5 : r = 0 := by rw [abs_lt] at h4; omega
      rw [h5] at hr; exact hr
    have ha : KTime.addAssign .base .milli v w = .ok v := by rw [KTime.addAssign, h0, res_bind_ok, add_zero, i64_ok hv]
    rw [runningTotal, ha, res_bind_ok]
    exact C145_stalls_counterexample ws hv fun x hx => hw x (List.mem_cons_of_mem _ hx)

/-- Five times 400 ms are 2 s, of which nothing is left; five times 600 ms are 3 s, of which 5 s are made. -/
example : runningTotal .base .milli 0 [400, 400, 400, 400, 400] = .ok 0 ∧ runningTotal .base .milli 0 [600, 600, 600, 600, 600] = .ok 5 ∧
    runningTotal .milli .base 500 [2, 3] = .ok 5500 := by decide +kernel

end Spine
