import Verif.Model.Sleep
import Verif.Props.Platform
/-!
# C165: programs that sleep until a timer is due
-/

namespace Spine
namespace Sleep

theorem millis_small (sys : System) {c : Int} (h0 : 0 ≤ c) (h1 : c < 2 ^ 32) : millis sys c = c := by
  cases sys
  · rfl
  · simp only [millis, arduinoMillis]
    rw [Int.toNat_of_nonneg h0]
    exact Int.emod_eq_of_lt h0 h1
  · rfl

/-- What a delay does, for short times. -/
theorem delay_small (sys : System) {c d : Int} (hc : |c| ≤ 2 ^ 25) (hd : |d| ≤ 2 ^ 24) : delay sys c d =
    .ok (match sys with | .mock => c + d | .arduino => c + d % 2 ^ 32 | .zephyr => c + max 0 d) := by
  rw [abs_le] at hc
  have hd' := abs_le.mp hd
  cases sys
  · have z1 : KTime.divide 0 1000 = .ok 0 := by decide +kernel
    simp only [delay, MockClock.delayMs, MockClock.millis, KTime.add]
    rw [fromOther_small .milli hd, res_bind_ok, i64_small (by rw [abs_le]; constructor <;> omega), res_bind_ok, res_pure, res_bind_ok]
    simp only [z1, res_bind_ok, fromOther_zero, add_zero]
    exact i64_small (by rw [abs_le]; constructor <;> omega)
  · rfl
  · have e : toInt32 d = d := by unfold toInt32; omega
    simp only [delay, zephyrDelayMs, Pause.least, e]
    rw [Int.mul_ediv_cancel _ (by norm_num)]

theorem untilNext_small {p i now : Int} {c : Bool} (hp : |p| ≤ 2 ^ 24) (hi : |i| ≤ 2 ^ 24) (hn : |now| ≤ 2 ^ 24) :
    (Interval.mk p i c).timeUntilNext now = .ok (p + i - now) := by
  unfold Interval.timeUntilNext Interval.future
  simp only
  rw [msAdd_near (hi.trans (by norm_num)), near_eq hi, i64_small (by rw [abs_le] at *; constructor <;> omega), res_bind_ok, msSub_near (hn.trans (by norm_num)),
    near_eq hn, i64_small (by rw [abs_le] at *; constructor <;> omega)]

/-! ## Alarms -/

/-- **C165**, for alarms: a program that sleeps until an alarm that is not yet due goes on exactly then, and the alarm has expired, on every platform. Missing: alarms that
are overdue (`C165_overdue_counterexample`), and times beyond 2^24 ms, which are rounded. -/
theorem C165_alarm_partial (sys : System) {clock : Int} {a : Alarm} (h0 : 0 ≤ clock) (h1 : clock ≤ a.future) (h2 : a.future ≤ 2 ^ 24) :
    ∃ a', untilAlarm sys clock a = .ok (a.future, true, a') := by
  have hf : |a.future| ≤ 2 ^ 24 := by rw [abs_le]; constructor <;> omega
  have hc : |clock| ≤ 2 ^ 24 := by rw [abs_le]; constructor <;> omega
  have ht : a.timeFromNow clock = .ok (a.future - clock) := by
    unfold Alarm.timeFromNow
    rw [msSub_near (hc.trans (by norm_num)), near_eq hc, i64_small (by rw [abs_le]; constructor <;> omega)]
  have hd : delay sys clock (a.future - clock) = .ok a.future := by
    rw [delay_small sys (hc.trans (by norm_num)) (by rw [abs_le]; constructor <;> omega)]
    cases sys <;> simp only [Except.ok.injEq] <;> omega
  unfold untilAlarm
  rw [millis_small sys h0 (by omega), ht, res_bind_ok, hd, res_bind_ok, millis_small sys (by omega) (by omega)]
  unfold Alarm.poll
  by_cases he : a.expired = true
  · rw [if_pos he]; exact ⟨_, rfl⟩
  · rw [if_neg he, msLe_near (hf.trans (by norm_num)), near_eq hf, res_bind_ok, decide_eq_true (le_refl _)]
    exact ⟨_, rfl⟩

example : untilAlarm .arduino 1000 ⟨1200, false⟩ = .ok (1200, true, ⟨1200, true⟩) := by decide +kernel

/-- C165 is false of alarms that are overdue, by whatever time. A program on Zephyr goes on at once; on Arduino it sleeps until 2^32 ms (49 days) after the time the alarm was set for;
and on the mock platform the clock is turned back to that time. -/
theorem C165_overdue_counterexample (sys : System) {clock : Int} {a : Alarm} (h0 : 0 ≤ a.future) (h1 : a.future < clock) (h2 : clock ≤ 2 ^ 24) :
    (do let d ← a.timeFromNow (millis sys clock)
        delay sys clock d) = .ok (match sys with | .mock => a.future | .arduino => a.future + 2 ^ 32 | .zephyr => clock) := by
  have hc : |clock| ≤ 2 ^ 24 := by rw [abs_le]; constructor <;> omega
  have ht : a.timeFromNow clock = .ok (a.future - clock) := by
    unfold Alarm.timeFromNow
    rw [msSub_near (hc.trans (by norm_num)), near_eq hc, i64_small (by rw [abs_le]; constructor <;> omega)]
  rw [millis_small sys (by omega) (by omega), ht, res_bind_ok, delay_small sys (hc.trans (by norm_num)) (by rw [abs_le]; constructor <;> omega)]
  cases sys <;> simp only [Except.ok.injEq] <;> omega

example : untilAlarm .arduino 1001 ⟨1000, false⟩ = .ok (1000 + 2 ^ 32, true, ⟨1000, true⟩) := by decide +kernel
example : untilAlarm .mock 1500 ⟨1000, false⟩ = .ok (1000, true, ⟨1000, true⟩) := by decide +kernel

/-! ## Interval timers -/

/-- One round that begins before the timer is due and ends after it. -/
theorem round_due (sys : System) {p i c : Int} {cu : Bool} {rs : List Int} {a b : Nat} (h0 : 0 ≤ p) (h1 : p ≤ c) (h2 : c ≤ p + i) (ha : 1 ≤ a)
    (hb : p + i + a ≤ 2 ^ 24) :
    round sys ⟨c, ⟨p, i, cu⟩, rs⟩ (a, b) = .ok ⟨p + i + a + b, ⟨if cu then p + i else p + i + a, i, cu⟩, (p + i + a) :: rs⟩ := by
  have hd : delay sys c (p + i - c) = .ok (p + i) := by
    rw [delay_small sys (by rw [abs_le]; constructor <;> omega) (by rw [abs_le]; constructor <;> omega)]
    cases sys <;> simp only [Except.ok.injEq] <;> omega
  have hp := Interval.poll_small (t := ⟨p, i, cu⟩) (now := p + i + a) (by simp only [abs_le]; omega) (by simp only [abs_le]; omega) (by rw [abs_le]; omega)
  rw [if_pos (by simp only; omega)] at hp
  unfold round
  simp only
  rw [millis_small sys (by omega) (by omega), untilNext_small (by rw [abs_le]; constructor <;> omega) (by rw [abs_le]; constructor <;> omega)
    (by rw [abs_le]; constructor <;> omega), res_bind_ok, hd, res_bind_ok, millis_small sys (by omega) (by omega), hp, res_bind_ok]
  rfl

/-- One round that ends when the timer is due: nothing happens. -/
theorem round_early (sys : System) {p i c : Int} {cu : Bool} {rs : List Int} {b : Nat} (h0 : 0 ≤ p) (h1 : p ≤ c) (h2 : c ≤ p + i)
    (hb : p + i ≤ 2 ^ 24) : round sys ⟨c, ⟨p, i, cu⟩, rs⟩ (0, b) = .ok ⟨p + i + b, ⟨p, i, cu⟩, rs⟩ := by
  have hd : delay sys c (p + i - c) = .ok (p + i) := by
    rw [delay_small sys (by rw [abs_le]; constructor <;> omega) (by rw [abs_le]; constructor <;> omega)]
    cases sys <;> simp only [Except.ok.injEq] <;> omega
  have hp := Interval.poll_small (t := ⟨p, i, cu⟩) (now := p + i) (by simp only [abs_le]; omega) (by simp only [abs_le]; omega) (by rw [abs_le]; omega)
  rw [if_neg (by simp only; omega)] at hp
  unfold round
  simp only
  rw [millis_small sys (by omega) (by omega), untilNext_small (by rw [abs_le]; constructor <;> omega) (by rw [abs_le]; constructor <;> omega)
    (by rw [abs_le]; constructor <;> omega), res_bind_ok, hd, res_bind_ok]
  simp only [Nat.cast_zero, add_zero]
  rw [millis_small sys (by omega) (by omega), hp, res_bind_ok]
  rfl

theorem rounds_plain (sys : System) {i : Int} (hi : 0 ≤ i) : ∀ (ws : List (Nat × Nat)) {p c : Int} {rs : List Int}, 0 ≤ p → p ≤ c → c ≤ p + i →
    (∀ w ∈ ws, 1 ≤ w.1 ∧ (w.2 : Int) ≤ i) → p + ws.length * i + (ws.map Prod.fst).sum ≤ 2 ^ 24 →
    ∃ s, rounds sys ⟨c, ⟨p, i, false⟩, rs⟩ ws = .ok s ∧
      s.runs = ((List.range ws.length).map fun k : Nat => p + (k + 1) * i + ((ws.take (k + 1)).map Prod.fst).sum).reverse ++ rs
  | [], _, _, _, _, _, _, _, _ => ⟨_, rfl, rfl⟩
  | (a, b) :: ws, p, c, rs, h0, h1, h2, hw, hs => by
    have hwb := hw (a, b) List.mem_cons_self
    have hn : 0 ≤ (ws.length : Int) * i := mul_nonneg (by omega) hi
    simp only [List.length_cons, List.map_cons, List.sum_cons, Nat.cast_add, Nat.cast_one, add_mul, one_mul] at hs
    obtain ⟨s, h3, h4⟩ := rounds_plain sys hi ws (p := p + i + a) (c := p + i + a + b) (rs := (p + i + a) :: rs) (by omega) (by omega)
      (by simp only at hwb; omega) (fun w hw' => hw w (List.mem_cons_of_mem _ hw')) (by omega)
    refine ⟨s, ?_, ?_⟩
    · rw [rounds, round_due sys h0 h1 h2 hwb.1 (by omega), res_bind_ok]
      exact h3
    · rw [h4, List.length_cons, List.range_succ_eq_map, List.map_cons, List.reverse_cons, List.append_assoc, List.map_map]
      congr 2
      · refine List.map_congr_left fun k _ => ?_
        simp only [Function.comp_apply, List.take_succ_cons, List.map_cons, List.sum_cons, Nat.cast_add, Nat.cast_one, Nat.succ_eq_add_one]
        ring
      · simp

theorem rounds_catchUp (sys : System) {i : Int} (hi : 0 ≤ i) : ∀ (ws : List (Nat × Nat)) {p c : Int} {rs : List Int}, 0 ≤ p → p ≤ c → c ≤ p + i →
    (∀ w ∈ ws, 1 ≤ w.1 ∧ (w.1 + w.2 : Int) ≤ i) → p + (ws.length + 1) * i ≤ 2 ^ 24 →
    ∃ s, rounds sys ⟨c, ⟨p, i, true⟩, rs⟩ ws = .ok s ∧
      s.runs = ((List.range ws.length).map fun k : Nat => p + (k + 1) * i + ((ws.map Prod.fst).getD k 0 : Nat)).reverse ++ rs
  | [], _, _, _, _, _, _, _, _ => ⟨_, rfl, rfl⟩
  | (a, b) :: ws, p, c, rs, h0, h1, h2, hw, hs => by
    have hwb := hw (a, b) List.mem_cons_self
    have hn : 0 ≤ (ws.length : Int) * i := mul_nonneg (by omega) hi
    simp only at hwb
    simp only [List.length_cons, Nat.cast_add, Nat.cast_one, add_mul, one_mul] at hs
    obtain ⟨s, h3, h4⟩ := rounds_catchUp sys hi ws (p := p + i) (c := p + i + a + b) (rs := (p + i + a) :: rs) (by omega) (by omega)
      (by omega) (fun w hw' => hw w (List.mem_cons_of_mem _ hw')) (by rw [add_mul]; omega)
    refine ⟨s, ?_, ?_⟩
    · rw [rounds, round_due sys h0 h1 h2 hwb.1 (by omega), res_bind_ok]
      exact h3
    · rw [h4, List.length_cons, List.range_succ_eq_map, List.map_cons, List.reverse_cons, List.append_assoc, List.map_map]
      congr 2
      · refine List.map_congr_left fun k _ => ?_
        simp only [Function.comp_apply, List.map_cons, Nat.cast_add, Nat.cast_one, Nat.succ_eq_add_one, List.getD_cons_succ]
        ring
      · simp

/-- **C165**, for interval timers: if in every round at least 1 ms passes between the sleep and `expired()`, and what the program does then takes no longer than the interval, the task runs in
every round, on every platform. Without catch-up, all the delays add up: the k-th run comes after k intervals and the delays so far. Missing: rounds
in which `expired()` reads the clock in the very ms in which the sleep ends (`C165_hang_counterexample`) or in which the program is late, and times beyond 2^24 ms. -/
theorem C165_periodic_partial (sys : System) {now interval : Int} (h0 : 0 ≤ now) (hi : 0 ≤ interval) (ws : List (Nat × Nat))
    (hw : ∀ w ∈ ws, 1 ≤ w.1 ∧ (w.2 : Int) ≤ interval) (hs : now + ws.length * interval + (ws.map Prod.fst).sum ≤ 2 ^ 24) :
    ∃ s, rounds sys (start now interval false) ws = .ok s ∧
      s.runs.reverse = (List.range ws.length).map fun k : Nat => now + (k + 1) * interval + ((ws.take (k + 1)).map Prod.fst).sum := by
  obtain ⟨s, h1, h2⟩ := rounds_plain sys hi ws (p := now) (c := now) (rs := []) h0 (le_refl _) (by omega) hw hs
  exact ⟨s, h1, by rw [h2, List.append_nil, List.reverse_reverse]⟩

/-- **C165**, for interval timers with catch-up: if a round takes no longer than the interval altogether, the k-th run comes after k intervals and the delay of that round alone. -/
theorem C165_catch_up_partial (sys : System) {now interval : Int} (h0 : 0 ≤ now) (hi : 0 ≤ interval) (ws : List (Nat × Nat))
    (hw : ∀ w ∈ ws, 1 ≤ w.1 ∧ (w.1 + w.2 : Int) ≤ interval) (hs : now + (ws.length + 1) * interval ≤ 2 ^ 24) :
    ∃ s, rounds sys (start now interval true) ws = .ok s ∧
      s.runs.reverse = (List.range ws.length).map fun k : Nat => now + (k + 1) * interval + ((ws.map Prod.fst).getD k 0 : Nat) := by
  obtain ⟨s, h1, h2⟩ := rounds_catchUp sys hi ws (p := now) (c := now) (rs := []) h0 (le_refl _) (by omega) hw hs
  exact ⟨s, h1, by rw [h2, List.append_nil, List.reverse_reverse]⟩

example : (rounds .arduino (start 1000 100 false) [(1, 20), (2, 100), (1, 0)]).map (·.runs.reverse) = .ok [1101, 1203, 1304] ∧
    (rounds .zephyr (start 1000 100 true) [(1, 20), (2, 98), (1, 0)]).map (·.runs.reverse) = .ok [1101, 1202, 1301] := by decide +kernel

/-- C165 is false of interval timers: if `expired()` reads the clock in the ms in which the sleep ends, the timer has not expired, and the time until the next expiry is then 0 or negative. If
no time passes at all, as on the mock platform, the task never runs, in however many rounds. -/
theorem C165_never_counterexample (sys : System) {now interval : Int} (cu : Bool) (h0 : 0 ≤ now) (hi : 0 ≤ interval) (hs : now + interval ≤ 2 ^ 24) (n : Nat) :
    rounds sys (start now interval cu) (List.replicate (n + 1) (0, 0)) = .ok ⟨now + interval, Interval.create now interval cu, []⟩ := by
  have key : ∀ (m : Nat), rounds sys ⟨now + interval, ⟨now, interval, cu⟩, []⟩ (List.replicate m (0, 0)) = .ok ⟨now + interval, ⟨now, interval, cu⟩, []⟩ := by
    intro m
    induction m with
    | zero => rfl
    | succ m ih =>
      rw [List.replicate_succ, rounds, round_early sys h0 (by omega) (by omega) hs, res_bind_ok]
      simpa using ih
  rw [List.replicate_succ, rounds]
  unfold start Interval.create
  rw [round_early sys h0 (le_refl _) (by omega) hs, res_bind_ok]
  simpa using key n

/-- C165 is false of interval timers on Arduino: if after such a round the program goes on for 1 ms or more, it sleeps for 49 days; the clock then has turned over, so that the task
does not run even then. -/
theorem C165_hang_counterexample {now interval : Int} (cu : Bool) {b : Nat} (h0 : 0 ≤ now) (hi : 0 ≤ interval) (hb : 1 ≤ b) (hs : now + interval + b ≤ 2 ^ 24) :
    rounds .arduino (start now interval cu) [(0, b), (0, 0)] = .ok ⟨now + interval + 2 ^ 32, Interval.create now interval cu, []⟩ := by
  have hd : delay .arduino (now + interval + b) (now + interval - (now + interval + b)) = .ok (now + interval + 2 ^ 32) := by
    rw [delay_small _ (by rw [abs_le]; constructor <;> omega) (by rw [abs_le]; constructor <;> omega)]
    simp only [Except.ok.injEq]; omega
  have hm : millis .arduino (now + interval + 2 ^ 32) = now + interval := by
    simp only [millis, arduinoMillis]
    rw [Int.toNat_of_nonneg (by omega)]
    omega
  have hp := Interval.poll_small (t := ⟨now, interval, cu⟩) (now := now + interval) (by simp only [abs_le]; omega) (by simp only [abs_le]; omega) (by rw [abs_le]; omega)
  rw [if_neg (by simp only; omega)] at hp
  unfold start Interval.create
  rw [rounds, round_early .arduino h0 (le_refl _) (by omega) (by omega), res_bind_ok, rounds]
  unfold round
  simp only
  rw [millis_small .arduino (by omega) (by omega), untilNext_small (by rw [abs_le]; constructor <;> omega) (by rw [abs_le]; constructor <;> omega)
    (by rw [abs_le]; constructor <;> omega), res_bind_ok, hd, res_bind_ok]
  simp only [Nat.cast_zero, add_zero]
  rw [hm, hp, res_bind_ok]
  rfl

/-- With an interval of 100 ms the program is stuck from the first period on if it needs 1 ms after the first sleep. -/
example : rounds .arduino (start 1000 100 true) [(0, 1), (0, 0)] = .ok ⟨4294968396, ⟨1000, 100, true⟩, []⟩ := by decide +kernel

/-- On the mock platform, a task that takes longer than its interval turns the clock back: here from 1351 ms to 1200 ms. -/
theorem C165_back_counterexample :
    rounds .mock (start 1000 100 true) [(1, 250)] = .ok ⟨1351, ⟨1100, 100, true⟩, [1101]⟩ ∧
    rounds .mock (start 1000 100 true) [(1, 250), (1, 0)] = .ok ⟨1201, ⟨1200, 100, true⟩, [1201, 1101]⟩ := by decide +kernel

end Sleep
end Spine
