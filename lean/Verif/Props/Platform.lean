import Verif.Model.Platform
import Verif.Props.Timers
import Verif.Props.Logging
/-!
# C96-C101: platforms
-/

namespace Spine

/-! ## C96: the mock clock -/

theorem mock_fold_ms : ∀ (ds : List Int) (c : MockClock), (∀ d ∈ ds, 0 ≤ d) → 0 ≤ c.ms → c.ms + ds.sum ≤ 2 ^ 24 →
    ds.foldlM MockClock.delayMs c = .ok { c with ms := c.ms + ds.sum }
  | [], c, _, _, _ => by simp
  | d :: ds, c, h, h0, hs => by
    have hd := h d List.mem_cons_self
    have hr : ∀ x ∈ ds, 0 ≤ x := fun x hx => h x (List.mem_cons_of_mem _ hx)
    have hsum := List.sum_nonneg hr
    rw [List.sum_cons] at hs
    have e : MockClock.delayMs c d = .ok { c with ms := c.ms + d } := by
      unfold MockClock.delayMs KTime.add
      rw [fromOther_small .milli (by rw [abs_le]; constructor <;> omega), res_bind_ok, i64_small (by rw [abs_le]; constructor <;> omega)]
      rfl
    rw [List.foldlM_cons, e, res_bind_ok, mock_fold_ms ds { c with ms := c.ms + d } hr (by show 0 ≤ c.ms + d; omega) (by show c.ms + d + _ ≤ _; omega)]
    simp [List.sum_cons, add_assoc]

theorem mock_fold_us : ∀ (ds : List Int) (c : MockClock), (∀ d ∈ ds, 0 ≤ d) → 0 ≤ c.us → c.us + ds.sum ≤ 2 ^ 24 →
    ds.foldlM MockClock.delayUs c = .ok { c with us := c.us + ds.sum }
  | [], c, _, _, _ => by simp
  | d :: ds, c, h, h0, hs => by
    have hd := h d List.mem_cons_self
    have hr : ∀ x ∈ ds, 0 ≤ x := fun x hx => h x (List.mem_cons_of_mem _ hx)
    have hsum := List.sum_nonneg hr
    rw [List.sum_cons] at hs
    have e : MockClock.delayUs c d = .ok { c with us := c.us + d } := by
      unfold MockClock.delayUs KTime.add
      rw [fromOther_small .micro (by rw [abs_le]; constructor <;> omega), res_bind_ok, i64_small (by rw [abs_le]; constructor <;> omega)]
      rfl
    rw [List.foldlM_cons, e, res_bind_ok, mock_fold_us ds { c with us := c.us + d } hr (by show 0 ≤ c.us + d; omega) (by show c.us + d + _ ≤ _; omega)]
    simp [List.sum_cons, add_assoc]

theorem fromOther_zero (a b : Mag) : KTime.fromOther a b 0 = .ok 0 := by cases a <;> cases b <;> decide +kernel

/-- C96: if all delays are in ms, `millis()` is their sum, and if all are in µs, `micros()` is. Missing: the other clock, and both kinds of delays
(`C96_mixed_counterexample`), and sums above 2^24, which are rounded. -/
theorem C96_partial {ds : List Int} (h : ∀ d ∈ ds, 0 ≤ d) (hs : ds.sum ≤ 2 ^ 24) :
    (ds.foldlM MockClock.delayMs .start >>= MockClock.millis) = .ok ds.sum ∧ (ds.foldlM MockClock.delayUs .start >>= MockClock.micros) = .ok ds.sum := by
  have h0 := List.sum_nonneg h
  have hb : i64 (ds.sum + 0) = .ok ds.sum := by rw [add_zero]; exact i64_small (by rw [abs_le]; constructor <;> omega)
  have z1 : KTime.divide 0 1000 = .ok 0 := by decide +kernel
  have z2 : KTime.scale 0 1000 = .ok 0 := by decide +kernel
  constructor
  · rw [mock_fold_ms ds .start h (by decide) (by show 0 + ds.sum ≤ _; omega), res_bind_ok]
    unfold MockClock.millis MockClock.start KTime.add
    simp only [zero_add, z1, res_bind_ok, fromOther_zero, hb]
  · rw [mock_fold_us ds .start h (by decide) (by show 0 + ds.sum ≤ _; omega), res_bind_ok]
    unfold MockClock.micros MockClock.start KTime.add
    simp only [zero_add, z2, res_bind_ok, fromOther_zero, hb]

example : ([5, 0, 250].foldlM MockClock.delayMs .start >>= MockClock.millis) = .ok 255 := by decide +kernel

/-- C96 is false: the factor of 1000 is applied twice. After a delay of 1 ms, `micros()` is 1,000,000; after a delay of 1 s in µs, `millis()` is 1. -/
theorem C96_mixed_counterexample : (MockClock.start.delayMs 1 >>= MockClock.micros) = .ok 1000000 ∧
    (MockClock.start.delayUs 1000000 >>= MockClock.millis) = .ok 1 := by decide +kernel

/-! ## C97: the clock rolls around -/

theorem arduinoMillis_range (t : Nat) : 0 ≤ arduinoMillis t ∧ arduinoMillis t < 2 ^ 32 := by unfold arduinoMillis; omega

/-- C97: after a `reset()`, whatever happened before, the timer works until the clock rolls around. Missing: a timer that is not reset
(`C97_interval_counterexample`), alarms (`C97_alarm_counterexample`), and the bound of C34. -/
theorem C97_reset_partial {t : Interval} {time : Nat} (hc : t.catchUp = true) (hi : 0 ≤ t.interval) (hi' : t.interval ≤ 2 ^ 24) {ts : List Nat}
    (hp : Polls (arduinoMillis time) (ts.map arduinoMillis)) : ∃ answers t', (t.reset (arduinoMillis time)).run (ts.map arduinoMillis) = .ok (answers, t') ∧
      answers.length = ts.length ∧
      ∀ (n : Nat) (x : Nat), ts[n]? = some x →
        answers[n]? = some (decide (arduinoMillis time + ((answers.take n).count true + 1) * t.interval < arduinoMillis x)) := by
  obtain ⟨answers, t', h1, h2, h3⟩ := C34_catch_up_partial hi hi' _ hp
  obtain ⟨p, i, c⟩ := t
  cases hc
  refine ⟨answers, t', h1, by simpa using h2, ?_⟩
  intro n x hx
  exact h3 n _ (by rw [List.getElem?_map, hx]; rfl)

/-- C97 is false: a timer whose last expiry was in the second half of the range of the clock does not expire for 12 days (2^30 ms) after the clock has rolled
around, whatever its interval and however often it is asked. -/
theorem C97_interval_counterexample {t : Interval} (hp : 2 ^ 31 ≤ t.previous) (hp' : t.previous < 2 ^ 32) (hi : 0 ≤ t.interval) (hi' : t.interval ≤ 2 ^ 32)
    {rolls : Nat} : ∀ ts : List Nat, (∀ x ∈ ts, rolls * 2 ^ 32 ≤ x ∧ x ≤ rolls * 2 ^ 32 + 2 ^ 30) →
    t.run (ts.map arduinoMillis) = .ok (ts.map fun _ => false, t)
  | [], _ => rfl
  | x :: ts, h => by
    obtain ⟨h1, h2⟩ := h x List.mem_cons_self
    have hx : 0 ≤ arduinoMillis x ∧ arduinoMillis x ≤ 2 ^ 30 := by unfold arduinoMillis; omega
    have hn : 2 ^ 31 - 2 ^ 8 ≤ near t.previous := by
      have := near_mono hp
      have e : near (2 ^ 31) = 2 ^ 31 := by decide +kernel
      omega
    have hn' : near t.previous ≤ 2 ^ 33 := by
      have := near_mono hp'.le
      have e : near (2 ^ 32) = 2 ^ 32 := by decide +kernel
      omega
    have hni : 0 ≤ near t.interval := by
      have := near_mono hi
      rw [near_zero] at this
      exact this
    have hpoll : t.poll (arduinoMillis x) = .ok (false, t) := by
      unfold Interval.poll
      rw [msSub_near (by rw [abs_le]; constructor <;> omega), i64_small (by rw [abs_le]; constructor <;> omega), res_bind_ok,
        msGt_near (by rw [abs_le]; constructor <;> omega), res_bind_ok]
      rw [decide_eq_false (by omega)]
      rfl
    rw [List.map_cons, Interval.run, hpoll]
    simp only [res_bind_ok]
    rw [C97_interval_counterexample hp hp' hi hi' ts fun y hy => h y (List.mem_cons_of_mem _ hy)]
    rfl

example : (Interval.create (arduinoMillis (2 ^ 32 - 10)) 1000 true).run ([2 ^ 32 + 2000, 2 ^ 32 + 86400000].map arduinoMillis) =
    .ok ([false, false], Interval.create (arduinoMillis (2 ^ 32 - 10)) 1000 true) := by decide +kernel

/-- C97 is false for alarms that are due after the clock has rolled around: they never fire. -/
theorem C97_alarm_counterexample {a : Alarm} (h : 2 ^ 32 < a.future) (he : a.expired = false) : ∀ ts : List Nat, a.run (ts.map arduinoMillis) = .ok (ts.map fun _ => false)
  | [] => rfl
  | x :: ts => by
    have hx := arduinoMillis_range x
    have hn : near (arduinoMillis x) ≤ 2 ^ 32 := by
      have := near_mono hx.2.le
      have e : near (2 ^ 32) = 2 ^ 32 := by decide +kernel
      omega
    have hpoll : a.poll (arduinoMillis x) = .ok (false, a) := by
      unfold Alarm.poll
      rw [he, if_neg (by decide), msLe_near (by rw [abs_le]; constructor <;> omega), res_bind_ok, decide_eq_false (by omega)]
      rfl
    rw [List.map_cons, Alarm.run, hpoll]
    simp only [res_bind_ok]
    rw [C97_alarm_counterexample h he ts]
    rfl

example : (Alarm.create .debug (arduinoMillis (2 ^ 32 - 1000)) 5000 false).toOption = some ⟨2 ^ 32 + 4000, false⟩ := by decide +kernel

/-! ## C98: delays on Zephyr -/

/-- C98: a delay of ms passes at least that time, and a delay of µs at least that time up to the ms below. Missing: the rest of µs and large times
(`C98_counterexample`). -/
theorem C98_partial {d : Int} (h0 : 0 ≤ d) (h1 : d < 2 ^ 31) : d * 1000 ≤ (zephyrDelayMs d).least ∧ d - 1000 < (zephyrDelayUs d).least ∧
    ((d < 1000 ∨ d % 1000 = 0) → d ≤ (zephyrDelayUs d).least) := by
  have e1 : toInt32 d = d := by unfold toInt32; omega
  have hk : d.tdiv 1000 = d / 1000 := Int.tdiv_eq_ediv_of_nonneg h0
  have e2 : toInt32 (d / 1000) = d / 1000 := by unfold toInt32; omega
  have hu : (d < 1000 → (zephyrDelayUs d).least = d) ∧ (1000 ≤ d → (zephyrDelayUs d).least = d / 1000 * 1000) := by
    unfold zephyrDelayUs
    constructor
    · intro h
      rw [if_neg (by omega)]
      simp only [Pause.least]
      omega
    · intro h
      rw [if_pos (by omega), hk, e2]
      simp only [Pause.least]
      rw [max_eq_right (by omega)]
  refine ⟨?_, ?_, ?_⟩
  · unfold zephyrDelayMs
    simp only [Pause.least]
    rw [e1, max_eq_right h0]
  · by_cases h : d < 1000
    · rw [hu.1 h]; omega
    · rw [hu.2 (by omega)]; omega
  · intro h
    by_cases h' : d < 1000
    · rw [hu.1 h']
    · rw [hu.2 (by omega)]; omega

/-- C98 is false: a delay of 1999 µs sleeps for 1 ms, one of 2^32 ms not at all, and one of -1 µs waits for more than an hour. -/
theorem C98_counterexample : zephyrDelayUs 1999 = .sleep 1 ∧ zephyrDelayMs (2 ^ 32) = .sleep 0 ∧ zephyrDelayUs (-1) = .wait 4294967295 := by decide +kernel

/-! ## C99: the log filter of Zephyr -/

/-- C99: after `set_log_level`, the filter is at the level. Missing: `OFF`. -/
theorem C99_partial {l : Logging.Level} (h : l ≠ .off) : (zephyrFilters l).getLast? = some l := by
  cases l <;> first | rfl | exact absurd rfl h

/-- C99 is false for `OFF`: the filter ends at `ERR`. -/
theorem C99_off_counterexample : (zephyrFilters .off).getLast? = some .err := rfl

/-! ## C100: reading a byte from the serial port -/

/-- C100: reading a byte takes the next one that was received. Missing: if there is none (`C100_empty_counterexample`). -/
theorem C100_partial {x : Nat} {rest : List Nat} (h : x < 256) : arduinoRead (x :: rest) = (true, x, rest) := by
  have : (((x : Int) % 256).toNat) = x := by omega
  simp [arduinoRead, serialRead]
  exact this

/-- C100 is false: if there is none, the byte 255 is reported as read. -/
theorem C100_empty_counterexample : arduinoRead [] = (true, 255, []) := by decide

/-! ## C101: `HAL::printf` -/

/-- C101: `HAL::printf` prints the text, cut to one less than the size of its buffer, and writes nothing outside of it. -/
theorem C101_printf {stack text : List Char} (hs : 0 < stack.length) (ht : '\x00' ∉ text) : platformPrintf stack text = .ok (text.take (stack.length - 1)) := by
  obtain ⟨b, e, h1, h2⟩ := snprintf_filled (buf := stack) (text := []) (more := text) (.inr rfl) hs (by simp)
  have hz : usub stack.length ([] : List Char).length = stack.length := by rw [usub, if_pos (by simp)]; simp
  rw [hz] at e
  unfold platformPrintf
  rw [show Logging.snprintf stack 0 stack.length text = .ok (b, text.length) from e, res_bind_ok]
  show Logging.cstring b = _
  rw [List.nil_append] at h2
  rw [cstring_filled h2 ht, h1]

example : platformPrintf "????".toList "hello".toList = .ok "hel".toList := by decide

end Spine
