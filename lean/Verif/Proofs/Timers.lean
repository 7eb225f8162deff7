import Verif.Model.Timers
import Verif.Proofs.Units
/-!
# Lemmas about timers
-/

namespace Spine

theorem msSub_near {a b : Int} (hb : |b| ≤ 2 ^ 62) : msSub a b = i64 (a - near b) := by
  simp only [msSub, KTime.sub, fromOther_mid _ hb, res_bind_ok]
theorem msAdd_near {a b : Int} (hb : |b| ≤ 2 ^ 62) : msAdd a b = i64 (a + near b) := by
  simp only [msAdd, KTime.add, fromOther_mid _ hb, res_bind_ok]
theorem msLe_near {a b : Int} (hb : |b| ≤ 2 ^ 62) : msLe a b = .ok (decide (a ≤ near b)) := by
  simp only [msLe, KTime.le, fromOther_mid _ hb, res_bind_ok, res_pure]
theorem msGt_near {a b : Int} (hb : |b| ≤ 2 ^ 62) : msGt a b = .ok (decide (a > near b)) := by
  simp only [msGt, KTime.gt, fromOther_mid _ hb, res_bind_ok, res_pure]

/-- Bound on the error of a conversion to `float`. -/
theorem near_bound (v : Int) : |near v - v| ≤ |v| / 2 ^ 24 := by
  rw [Int.le_ediv_iff_mul_le (by norm_num)]; exact near_err v

namespace Alarm

/-- Query an alarm at the given times. -/
def run (a : Alarm) : List Int → Res (List Bool)
  | [] => .ok []
  | t :: ts => do
    let (r, a) ← a.poll t
    return r :: (← a.run ts)

theorem run_spec (ts : List Int) : ∀ (a : Alarm), ts.Pairwise (· ≤ ·) → (∀ t ∈ ts, |t| ≤ 2 ^ 62) →
    (a.expired = true → ∀ t ∈ ts, a.future ≤ near t) → a.run ts = .ok (ts.map fun t => decide (a.future ≤ near t)) := by
  induction ts with
  | nil => intros; rfl
  | cons t ts ih =>
    intro a hs hr he
    rw [List.pairwise_cons] at hs
    have hr' := fun x hx => hr x (List.mem_cons_of_mem _ hx)
    have ht : |t| ≤ 2 ^ 62 := hr t List.mem_cons_self
    simp only [run, poll]
    by_cases hx : a.expired = true
    · have h1 := he hx t List.mem_cons_self
      rw [if_pos hx]
      simp only [res_bind_ok, ih a hs.2 hr' (fun _ x h => he hx x (List.mem_cons_of_mem _ h)), res_pure, List.map_cons, h1,
        decide_true]
    · rw [if_neg hx, msLe_near ht]
      by_cases hf : a.future ≤ near t
      · simp only [hf, decide_true, res_bind_ok, if_true, res_pure]
        rw [ih { a with expired := true } hs.2 hr' (fun _ x h => hf.trans (near_mono (hs.1 x h)))]
        simp only [res_bind_ok, List.map_cons, hf, decide_true]
      · simp only [hf, decide_false, res_bind_ok, Bool.false_eq_true, if_false, res_pure]
        rw [ih a hs.2 hr' (fun h => absurd h hx)]
        simp only [res_bind_ok, List.map_cons, hf, decide_false]

end Alarm

namespace Interval

/-- Query an interval timer at the given times. -/
def run (t : Interval) : List Int → Res (List Bool × Interval)
  | [] => .ok ([], t)
  | now :: ts => do
    let (r, t) ← t.poll now
    let (rs, t) ← t.run ts
    return (r :: rs, t)

/-- Within 2^24 ms the timer computes exactly. -/
theorem poll_small {t : Interval} {now : Int} (hp : |t.previous| ≤ 2 ^ 24) (hi : |t.interval| ≤ 2 ^ 24) (hn : |now| ≤ 2 ^ 24) :
    t.poll now = .ok (if now - t.previous > t.interval then
      (true, { t with previous := if t.catchUp then t.previous + t.interval else now }) else (false, t)) := by
  have h1 : |t.previous| ≤ 2 ^ 62 := hp.trans (by norm_num)
  have h2 : |t.interval| ≤ 2 ^ 62 := hi.trans (by norm_num)
  unfold poll
  rw [msSub_near h1, near_eq hp, i64_small (by rw [abs_le] at *; constructor <;> omega)]
  simp only [res_bind_ok, msGt_near h2, near_eq hi]
  by_cases h : now - t.previous > t.interval
  · simp only [h, decide_true, if_true]
    by_cases hc : t.catchUp = true
    · simp only [hc, if_true]
      rw [msAdd_near h2, near_eq hi, i64_small (by rw [abs_le] at *; constructor <;> omega)]
      rfl
    · simp only [hc, if_false]; rfl
  · simp only [h, decide_false, Bool.false_eq_true, if_false, res_pure]

end Interval
end Spine
