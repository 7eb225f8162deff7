import Verif.Proofs.Timers
/-!
# Properties C33, C34, C74 and C75: timers

Times are in ms since start-up.  2^24 ms are 4 hours and 39 minutes.
-/

namespace Spine

/-! ## C33 -/

/-- C33 (partial). Up to 2^24 ms after start-up: queried at any times (the clock does not run backwards), an alarm
answers at each of them whether the deadline has been reached. Hence it never answers early or late, and stays expired.
Missing: later queries (`C33_early_counterexample`, `C33_late_counterexample`). -/
theorem C33_alarm_partial (b : Build) {now delay : Int} (absolute : Bool) (hd : |delay| ≤ 2 ^ 24) (hn : |now| ≤ 2 ^ 24)
    (ha : absolute = true → now < delay) (ts : List Int) (hs : ts.Pairwise (· ≤ ·)) (ht : ∀ t ∈ ts, |t| ≤ 2 ^ 24) :
    ∃ a, Alarm.create b now delay absolute = .ok a ∧
      a.run ts = .ok (ts.map fun t => decide ((if absolute then delay else now + delay) ≤ t)) := by
  have hd' : |delay| ≤ 2 ^ 62 := hd.trans (by norm_num)
  have hn' : |now| ≤ 2 ^ 62 := hn.trans (by norm_num)
  have hrun : ∀ f, (Alarm.mk f false).run ts = .ok (ts.map fun t => decide (f ≤ t)) := by
    intro f
    rw [Alarm.run_spec ts ⟨f, false⟩ hs (fun t h => (ht t h).trans (by norm_num)) (fun h => by cases h)]
    congr 1
    apply List.map_congr_left
    intro t h
    rw [near_eq (ht t h)]
  cases absolute with
  | true =>
    refine ⟨⟨delay, false⟩, ?_, hrun delay⟩
    simp only [Alarm.create, if_true, res_bind_ok, msGt_near hn', near_eq hn, ha rfl, gt_iff_lt, decide_true, spnAssert_true, res_pure, ite_self]
  | false =>
    refine ⟨⟨now + delay, false⟩, ?_, hrun (now + delay)⟩
    simp only [Alarm.create, Bool.false_eq_true, if_false, msAdd_near hd', near_eq hd]
    rw [i64_small (by rw [abs_le] at *; constructor <;> omega)]
    rfl

/-- C33 (partial), at any time: the answers are monotone (once expired, always expired), and an answer is wrong by at
most one part in 2^24 of the delay and of the clock. -/
theorem C33_error_partial (b : Build) {now delay : Int} (hd : |delay| ≤ 2 ^ 61) (hn : |now| ≤ 2 ^ 61)
    (ts : List Int) (hs : ts.Pairwise (· ≤ ·)) (ht : ∀ t ∈ ts, |t| ≤ 2 ^ 62) :
    ∃ a answer, Alarm.create b now delay false = .ok a ∧ a.run ts = .ok (ts.map answer) ∧
      (∀ t t', t ≤ t' → answer t = true → answer t' = true) ∧
      ∀ t, (answer t = true → now + delay ≤ t + |t| / 2 ^ 24 + |delay| / 2 ^ 24) ∧
           (now + delay + |delay| / 2 ^ 24 ≤ t - |t| / 2 ^ 24 → answer t = true) := by
  have hd' : |delay| ≤ 2 ^ 62 := hd.trans (by norm_num)
  have he := near_bound delay
  have hb : |delay| / 2 ^ 24 ≤ 2 ^ 37 := by
    have : |delay| / 2 ^ 24 ≤ 2 ^ 61 / 2 ^ 24 := Int.ediv_le_ediv (by norm_num) hd
    exact this.trans (by norm_num)
  generalize |delay| / 2 ^ 24 = d at *
  refine ⟨⟨now + near delay, false⟩, fun t => decide (now + near delay ≤ near t), ?_, ?_, ?_, ?_⟩
  · simp only [Alarm.create, Bool.false_eq_true, if_false, msAdd_near hd']
    rw [i64_ok (by rw [abs_le] at *; unfold InI64; omega)]
    rfl
  · exact Alarm.run_spec ts _ hs ht (fun h => by cases h)
  · intro t t' h h1
    simp only [decide_eq_true_eq] at *
    exact h1.trans (near_mono h)
  · intro t
    have := near_bound t
    simp only [decide_eq_true_eq]
    rw [abs_le] at *
    constructor <;> intro h <;> omega

/-- C33 is false later on: an alarm set for 4 ms from 16777216 fires 1 ms early. -/
theorem C33_early_counterexample (b : Build) :
    ∃ a, Alarm.create b 16777216 4 false = .ok a ∧ a.run [16777218, 16777219] = .ok [false, true] := by
  cases b <;> exact ⟨⟨16777220, false⟩, by decide +kernel, by decide +kernel⟩

/-- C33 is false later on: after 25 days, an alarm set for 1 ms fires 128 ms late. -/
theorem C33_late_counterexample (b : Build) :
    ∃ a, Alarm.create b 2147483648 1 false = .ok a ∧ a.run [2147483649, 2147483776, 2147483777] = .ok [false, false, true] := by
  cases b <;> exact ⟨⟨2147483649, false⟩, by decide +kernel, by decide +kernel⟩

/-- Non-vacuity: an alarm for 200 ms, set at 1000, queried seven times. -/
example : ∃ a, Alarm.create .debug 1000 200 false = .ok a ∧ a.run [1000, 1000, 1199, 1200, 1200, 1201, 90000] =
    .ok [false, false, false, true, true, true, true] := by
  obtain ⟨a, h1, h2⟩ := C33_alarm_partial .debug (now := 1000) (delay := 200) false (by norm_num) (by norm_num) (by simp)
    [1000, 1000, 1199, 1200, 1200, 1201, 90000] (by decide) (by decide)
  exact ⟨a, h1, h2⟩

/-! ## C34 -/

/-- The queries of an interval timer that C34 is about: the clock does not run backwards and stays within 2^24 ms. -/
structure Polls (start : Int) (ts : List Int) : Prop where
  nonneg : 0 ≤ start
  bound : start ≤ 2 ^ 24
  after : ∀ t ∈ ts, start ≤ t ∧ t ≤ 2 ^ 24
  sorted : ts.Pairwise (· ≤ ·)

theorem Polls.tail {s s' t : Int} {ts : List Int} (h : Polls s (t :: ts)) (h1 : 0 ≤ s') (h2 : s' ≤ t) : Polls s' ts := by
  have hs := List.pairwise_cons.mp h.sorted
  refine ⟨h1, ?_, fun x hx => ⟨?_, (h.after x (List.mem_cons_of_mem _ hx)).2⟩, hs.2⟩
  · exact h2.trans (h.after t List.mem_cons_self).2
  · exact h2.trans (hs.1 x hx)

theorem Polls.poll {s i t : Int} {ts : List Int} {c : Bool} (h : Polls s (t :: ts)) (hi : 0 ≤ i) (hi' : i ≤ 2 ^ 24) :
    (Interval.mk s i c).poll t = .ok (if t - s > i then (true, ⟨if c then s + i else t, i, c⟩) else (false, ⟨s, i, c⟩)) := by
  have ha := h.after t List.mem_cons_self
  have h0 := h.nonneg
  have hb := h.bound
  exact Interval.poll_small (t := ⟨s, i, c⟩) (by simp only [abs_le]; omega) (by simp only [abs_le]; omega) (by rw [abs_le]; omega)

/-- C34 (partial). With catch-up, the k-th expiry is due after `start + k * interval`: a query made after `k` expiries
answers whether the clock has passed `start + (k + 1) * interval`. So no interval is lost and none is counted twice.
Missing: clocks beyond 2^24 ms (`C34_early_counterexample`). -/
theorem C34_catch_up_partial {start interval : Int} (hi : 0 ≤ interval) (hi' : interval ≤ 2 ^ 24) (ts : List Int)
    (hp : Polls start ts) : ∃ answers t, (Interval.create start interval true).run ts = .ok (answers, t) ∧
      answers.length = ts.length ∧
      ∀ n now, ts[n]? = some now →
        answers[n]? = some (decide (start + ((answers.take n).count true + 1) * interval < now)) := by
  unfold Interval.create
  induction ts generalizing start with
  | nil => exact ⟨[], _, rfl, rfl, by simp⟩
  | cons t ts ih =>
    have ha := hp.after t List.mem_cons_self
    have h0 := hp.nonneg
    simp only [Interval.run, hp.poll hi hi', res_bind_ok]
    by_cases hx : t - start > interval
    · obtain ⟨as, t', h1, h2, h3⟩ := ih (hp.tail (s' := start + interval) (by omega) (by omega))
      rw [if_pos hx]
      simp only [if_true, h1, res_bind_ok, res_pure]
      refine ⟨true :: as, t', rfl, by simp [h2], fun n now hn => ?_⟩
      cases n with
      | zero =>
        simp only [List.getElem?_cons_zero, Option.some.injEq] at hn ⊢
        subst hn; simp; omega
      | succ n =>
        simp only [List.getElem?_cons_succ] at hn ⊢
        rw [h3 n now hn, List.take_succ_cons, List.count_cons_self]
        congr 2
        push_cast
        rw [show start + interval + ((List.count true (List.take n as) : Int) + 1) * interval =
          start + ((List.count true (List.take n as) : Int) + 1 + 1) * interval by ring]
    · obtain ⟨as, t', h1, h2, h3⟩ := ih (hp.tail (s' := start) h0 ha.1)
      rw [if_neg hx]
      simp only [h1, res_bind_ok, res_pure]
      refine ⟨false :: as, t', rfl, by simp [h2], fun n now hn => ?_⟩
      cases n with
      | zero =>
        simp only [List.getElem?_cons_zero, Option.some.injEq] at hn ⊢
        subst hn; simp; omega
      | succ n =>
        simp only [List.getElem?_cons_succ] at hn ⊢
        rw [h3 n now hn, List.take_succ_cons, List.count_cons_of_ne (by simp)]

/-- C34 (partial), both modes: at every query, the number of expiries so far times the interval is at most the time
elapsed. -/
theorem C34_rate_partial {start interval : Int} (catchUp : Bool) (hi : 0 ≤ interval) (hi' : interval ≤ 2 ^ 24) (ts : List Int)
    (hp : Polls start ts) : ∃ answers t, (Interval.create start interval catchUp).run ts = .ok (answers, t) ∧
      answers.length = ts.length ∧
      ∀ n now, ts[n]? = some now → ((answers.take (n + 1)).count true : Int) * interval ≤ now - start := by
  unfold Interval.create
  induction ts generalizing start with
  | nil => exact ⟨[], _, rfl, rfl, by simp⟩
  | cons t ts ih =>
    have ha := hp.after t List.mem_cons_self
    have h0 := hp.nonneg
    have hs := List.pairwise_cons.mp hp.sorted
    simp only [Interval.run, hp.poll hi hi', res_bind_ok]
    by_cases hx : t - start > interval
    · obtain ⟨as, t', h1, h2, h3⟩ := ih (hp.tail (s' := if catchUp then start + interval else t)
        (by split <;> omega) (by split <;> omega))
      rw [if_pos hx]
      simp only [h1, res_bind_ok, res_pure]
      refine ⟨true :: as, t', rfl, by simp [h2], fun n now hn => ?_⟩
      rw [List.take_succ_cons, List.count_cons_self]
      push_cast
      cases n with
      | zero =>
        simp only [List.getElem?_cons_zero, Option.some.injEq] at hn
        subst hn; simp; omega
      | succ n =>
        simp only [List.getElem?_cons_succ] at hn
        have := h3 n now hn
        rw [add_mul, one_mul]
        split at this <;> omega
    · obtain ⟨as, t', h1, h2, h3⟩ := ih (hp.tail (s' := start) h0 ha.1)
      rw [if_neg hx]
      simp only [h1, res_bind_ok, res_pure]
      refine ⟨false :: as, t', rfl, by simp [h2], fun n now hn => ?_⟩
      rw [List.take_succ_cons, List.count_cons_of_ne (by simp)]
      cases n with
      | zero =>
        simp only [List.getElem?_cons_zero, Option.some.injEq] at hn
        subst hn; simp; omega
      | succ n =>
        simp only [List.getElem?_cons_succ] at hn
        exact h3 n now hn

/-- C34 (partial), without catch-up: two expiries are more than an interval apart, the first is more than an interval
after the start, and a query is answered `false` only within one interval of the start or of an expiry. -/
theorem C34_separation_partial {start interval : Int} (hi : 0 ≤ interval) (hi' : interval ≤ 2 ^ 24) (ts : List Int)
    (hp : Polls start ts) : ∃ answers t, (Interval.create start interval false).run ts = .ok (answers, t) ∧
      answers.length = ts.length ∧
      (∀ (j : Nat) (now : Int), ts[j]? = some now → answers[j]? = some true → now - start > interval) ∧
      (∀ (i j : Nat) u now, i < j → ts[i]? = some u → ts[j]? = some now → answers[i]? = some true → answers[j]? = some true →
        now - u > interval) ∧
      (∀ (j : Nat) (now : Int), ts[j]? = some now → answers[j]? = some false →
        now - start ≤ interval ∨ ∃ (i : Nat) (u : Int), i < j ∧ ts[i]? = some u ∧ answers[i]? = some true ∧ now - u ≤ interval) := by
  unfold Interval.create
  induction ts generalizing start with
  | nil => exact ⟨[], _, rfl, rfl, by simp, by simp, by simp⟩
  | cons t ts ih =>
    have ha := hp.after t List.mem_cons_self
    have h0 := hp.nonneg
    have hs := List.pairwise_cons.mp hp.sorted
    simp only [Interval.run, hp.poll hi hi', res_bind_ok]
    by_cases hx : t - start > interval
    · obtain ⟨as, t', h1, h2, h3, h4, h5⟩ := ih (hp.tail (s' := t) (by omega) (by omega))
      rw [if_pos hx]
      simp only [Bool.false_eq_true, if_false, h1, res_bind_ok, res_pure]
      refine ⟨true :: as, t', rfl, by simp [h2], ?_, ?_, ?_⟩
      · intro j now hj hr
        cases j with
        | zero => simp only [List.getElem?_cons_zero, Option.some.injEq] at hj; omega
        | succ j =>
          simp only [List.getElem?_cons_succ] at hj hr
          have := h3 j now hj hr; omega
      · intro i j u now hij hu hj hri hrj
        cases j with
        | zero => omega
        | succ j =>
          simp only [List.getElem?_cons_succ] at hj hrj
          cases i with
          | zero =>
            simp only [List.getElem?_cons_zero, Option.some.injEq] at hu
            subst hu; exact h3 j now hj hrj
          | succ i =>
            simp only [List.getElem?_cons_succ] at hu hri
            exact h4 i j u now (by omega) hu hj hri hrj
      · intro j now hj hr
        cases j with
        | zero => simp at hr
        | succ j =>
          simp only [List.getElem?_cons_succ] at hj hr
          right
          rcases h5 j now hj hr with h | ⟨i, u, hij, hu, hri, hle⟩
          · exact ⟨0, t, by omega, by simp, by simp, h⟩
          · exact ⟨i + 1, u, by omega, by simpa using hu, by simpa using hri, hle⟩
    · obtain ⟨as, t', h1, h2, h3, h4, h5⟩ := ih (hp.tail (s' := start) h0 ha.1)
      rw [if_neg hx]
      simp only [h1, res_bind_ok, res_pure]
      refine ⟨false :: as, t', rfl, by simp [h2], ?_, ?_, ?_⟩
      · intro j now hj hr
        cases j with
        | zero => simp at hr
        | succ j =>
          simp only [List.getElem?_cons_succ] at hj hr
          exact h3 j now hj hr
      · intro i j u now hij hu hj hri hrj
        cases j with
        | zero => omega
        | succ j =>
          cases i with
          | zero => simp at hri
          | succ i =>
            simp only [List.getElem?_cons_succ] at hu hri hj hrj
            exact h4 i j u now (by omega) hu hj hri hrj
      · intro j now hj hr
        cases j with
        | zero =>
          simp only [List.getElem?_cons_zero, Option.some.injEq] at hj
          left; omega
        | succ j =>
          simp only [List.getElem?_cons_succ] at hj hr
          rcases h5 j now hj hr with h | ⟨i, u, hij, hu, hri, hle⟩
          · exact .inl h
          · exact .inr ⟨i + 1, u, by omega, by simpa using hu, by simpa using hri, hle⟩

/-- C34 (partial), at any time: a query can be wrong by at most one part in 2^24 of the time of the previous expiry
and of the interval. -/
theorem C34_error_partial {t : Interval} {now : Int} (hp : |t.previous| ≤ 2 ^ 60) (hi : |t.interval| ≤ 2 ^ 60)
    (hn : |now| ≤ 2 ^ 60) : ∃ r t', t.poll now = .ok (r, t') ∧
      (r = true → now - t.previous + |t.previous| / 2 ^ 24 > t.interval - |t.interval| / 2 ^ 24) ∧
      (r = false → now - t.previous - |t.previous| / 2 ^ 24 ≤ t.interval + |t.interval| / 2 ^ 24) := by
  have hp' : |t.previous| ≤ 2 ^ 62 := hp.trans (by norm_num)
  have hi' : |t.interval| ≤ 2 ^ 62 := hi.trans (by norm_num)
  have e1 := near_bound t.previous
  have e2 := near_bound t.interval
  have b1 : |t.previous| / 2 ^ 24 ≤ 2 ^ 36 :=
    (Int.ediv_le_ediv (by norm_num) hp).trans (by norm_num)
  have b2 : |t.interval| / 2 ^ 24 ≤ 2 ^ 36 :=
    (Int.ediv_le_ediv (by norm_num) hi).trans (by norm_num)
  unfold Interval.poll
  rw [msSub_near hp']
  generalize |t.previous| / 2 ^ 24 = d1 at *
  generalize |t.interval| / 2 ^ 24 = d2 at *
  rw [i64_ok (by rw [abs_le] at *; unfold InI64; omega)]
  simp only [res_bind_ok, msGt_near hi', decide_eq_true_eq]
  by_cases hx : now - near t.previous > near t.interval
  · rw [if_pos hx]
    have : now - t.previous + d1 > t.interval - d2 := by rw [abs_le] at *; omega
    by_cases hc : t.catchUp = true
    · rw [if_pos hc, msAdd_near hi', i64_ok (by rw [abs_le] at *; unfold InI64; omega)]
      exact ⟨true, _, rfl, fun _ => this, fun h => by cases h⟩
    · rw [if_neg hc]
      exact ⟨true, _, rfl, fun _ => this, fun h => by cases h⟩
  · rw [if_neg hx]
    refine ⟨false, t, rfl, fun h => (Bool.noConfusion h), fun _ => ?_⟩
    rw [abs_le] at *; omega

/-- C34 is false later on: after 25 days, a timer of 1000 ms expires after 938 ms. -/
theorem C34_early_counterexample (c : Bool) :
    ∃ t, (Interval.create (2147483648 + 63) 1000 c).run [2147483648 + 63 + 938] = .ok ([true], t) := by
  cases c
  · exact ⟨⟨2147483648 + 63 + 938, 1000, false⟩, by decide +kernel⟩
  · exact ⟨⟨2147483648 + 63 + 1000, 1000, true⟩, by decide +kernel⟩

/-- Non-vacuity: with catch-up, a late poll is followed by further expiries until the timer has caught up. -/
example : ∃ t, (Interval.create 1000 100 true).run [1100, 1101, 1350, 1350, 1350] = .ok ([false, true, true, true, false], t) ∧
    Polls 1000 [1100, 1101, 1350, 1350, 1350] :=
  ⟨⟨1300, 100, true⟩, by decide +kernel, by norm_num, by norm_num, by decide, by decide⟩
/-- ... and without, it is not. -/
example : ∃ t, (Interval.create 1000 100 false).run [1100, 1101, 1350, 1350, 1350] = .ok ([false, true, true, false, false], t) :=
  ⟨⟨1350, 100, false⟩, by decide +kernel⟩

/-! ## C74 -/

/-- C74 (partial). `expired()` answers `true` after the time given by `future()` and `false` before it.
Missing: the moment itself (`C74_future_counterexample`) and clocks beyond 2^24 ms. -/
theorem C74_future_partial {t : Interval} {now : Int} (hp : |t.previous| ≤ 2 ^ 24) (hi : |t.interval| ≤ 2 ^ 24)
    (hn : |now| ≤ 2 ^ 24) : ∃ f r t', t.future = .ok f ∧ t.poll now = .ok (r, t') ∧ r = decide (f < now) := by
  have hf : t.future = .ok (t.previous + t.interval) := by
    unfold Interval.future
    rw [msAdd_near (hi.trans (by norm_num)), near_eq hi, i64_small (by rw [abs_le] at *; constructor <;> omega)]
  have h := Interval.poll_small hp hi hn
  by_cases hx : now - t.previous > t.interval
  · rw [if_pos hx] at h
    exact ⟨_, _, _, hf, h, by simp; omega⟩
  · rw [if_neg hx] at h
    exact ⟨_, _, _, hf, h, by simp; omega⟩

/-- C74 is false: at the moment given by `future()`, when `time_until_next()` is zero, the timer has not expired. -/
theorem C74_future_counterexample (c : Bool) : (Interval.create 1000 100 c).future = .ok 1100 ∧
    (Interval.create 1000 100 c).timeUntilNext 1100 = .ok 0 ∧
    (Interval.create 1000 100 c).poll 1100 = .ok (false, Interval.create 1000 100 c) := by
  cases c <;> decide +kernel

/-! ## C75 -/

/-- Call `time_since_last()` several times; each call reads the clock twice, see `Timer.timeSinceLast`. -/
def Timer.run (t : Timer) : List (Int × Int) → Res (List Int)
  | [] => .ok []
  | (now, later) :: ts => do
    let (d, t) ← t.timeSinceLast now later true
    return d :: (← t.run ts)

/-- The time lost between the two readings of the clock in a call, and between the calls. -/
def lost : List (Int × Int) → Int
  | [] => 0
  | (now, later) :: ts => (later - now) + lost ts

/-- C75 (partial). The times reported by a series of calls add up to the time elapsed from the epoch to the end of the
last call, less the ticks of the clock which fall between the two readings within a call.
Missing: these ticks (`C75_timer_counterexample`) and clocks beyond 2^24 ms. -/
theorem C75_timer_partial {epoch : Int} (ts : List (Int × Int)) (he : |epoch| ≤ 2 ^ 24)
    (ht : ∀ p ∈ ts, |p.1| ≤ 2 ^ 24 ∧ |p.2| ≤ 2 ^ 24) :
    ∃ ds, (Timer.create epoch).run ts = .ok ds ∧
      ds.sum = ((ts.getLast?.map Prod.snd).getD epoch - epoch) - lost ts := by
  unfold Timer.create
  induction ts generalizing epoch with
  | nil => exact ⟨[], rfl, by simp [lost]⟩
  | cons p ts ih =>
    obtain ⟨now, later⟩ := p
    have hp := ht (now, later) List.mem_cons_self
    obtain ⟨ds, h1, h2⟩ := ih hp.2 (fun q hq => ht q (List.mem_cons_of_mem _ hq))
    simp only at hp
    refine ⟨(now - epoch) :: ds, ?_, ?_⟩
    · simp only [Timer.run, Timer.timeSinceLast]
      rw [msSub_near (he.trans (by norm_num)), near_eq he, i64_small (by rw [abs_le] at *; constructor <;> omega)]
      simp only [res_bind_ok, if_true, res_pure, h1]
    · simp only [List.sum_cons, h2, lost]
      cases ts with
      | nil => simp [lost]
      | cons q ts =>
        rw [List.getLast?_cons_cons]
        cases hl : (q :: ts).getLast? with
        | none => simp at hl
        | some x => simp; omega

/-- C75 is false: a tick of the clock within a call is lost. -/
theorem C75_timer_counterexample : (Timer.create 0).run [(10, 11), (20, 20)] = .ok [10, 9] := by decide +kernel

/-- Non-vacuity. -/
example : (Timer.create 5).run [(10, 10), (25, 25), (26, 26)] = .ok [5, 15, 1] ∧ lost [(10, 10), (25, 25), (26, 26)] = 0 := by
  decide +kernel

end Spine
