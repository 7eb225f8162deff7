import Verif.Model.Autotune
import Verif.Model.Platform
import Verif.Proofs.Timers
import Verif.Props.Tuner
import Verif.Core.Bind
/-!
# Properties C153 and C154: what autotuning does to the process

The properties are about the calls that `autotune` makes, in order, each with what the two clocks show at the call: the journal.
-/

namespace Spine

/-- A call of a function given to `autotune`. -/
inductive LogCall (F : Type)
  | read (x : F)
  | request (v : F)
  | loop
  | sleep (ms : Int)
  deriving DecidableEq

/-- A call, with the readings of `HAL::millis()` and `uptime()` when it is made. -/
structure LogEntry (F : Type) where
  ms : Int
  up : Int
  call : LogCall F
  deriving DecidableEq

variable {σ F : Type} [Arith F]

namespace Plant

/-- The same process, with a journal. -/
def recorded (E : Plant σ F) : Plant (σ × List (LogEntry F)) F where
  get w := ((E.get w.1).1, ((E.get w.1).2, w.2 ++ [⟨E.millis w.1, E.uptime w.1, .read (E.get w.1).1⟩]))
  set v w := (E.set v w.1, w.2 ++ [⟨E.millis w.1, E.uptime w.1, .request v⟩])
  loop := E.loop.map fun f w => (f w.1, w.2 ++ [⟨E.millis w.1, E.uptime w.1, .loop⟩])
  uptime w := E.uptime w.1
  sleep d w := (E.sleep d w.1, w.2 ++ [⟨E.millis w.1, E.uptime w.1, .sleep d⟩])
  millis w := E.millis w.1

/-- The calls of `loop` at one place: one, or none if there is no `loop`. -/
def loops (E : Plant σ F) : List (LogCall F) := if E.loop.isSome then [.loop] else []

omit [Arith F] in
theorem recorded_tick (E : Plant σ F) (w : σ) (l : List (LogEntry F)) :
    ∃ m : List (LogEntry F), E.recorded.tick (w, l) = (E.tick w, l ++ m) ∧ m.map LogEntry.call = E.loops := by
  unfold tick loops recorded
  cases E.loop with
  | none => exact ⟨[], by simp⟩
  | some f => exact ⟨[⟨E.millis w, E.uptime w, .loop⟩], by simp⟩

/-- The clock `HAL::millis()` does not run backwards, no call takes 2^40 ms (35 years), and `sleep(1000)` lasts at least that long. -/
structure Ticks (E : Plant σ F) : Prop where
  get : ∀ w, E.millis w ≤ E.millis (E.get w).2 ∧ E.millis (E.get w).2 ≤ E.millis w + 2 ^ 40
  set : ∀ v w, E.millis w ≤ E.millis (E.set v w) ∧ E.millis (E.set v w) ≤ E.millis w + 2 ^ 40
  loop : ∀ w, E.millis w ≤ E.millis (E.tick w) ∧ E.millis (E.tick w) ≤ E.millis w + 2 ^ 40
  sleep : ∀ w, E.millis w + 1000 ≤ E.millis (E.sleep 1000 w) ∧ E.millis (E.sleep 1000 w) ≤ E.millis w + 2 ^ 40

/-- One turn of heating: the reading is below the startpoint, the upper limit is requested before the deadline, and a sleep of a second follows.
If debug messages are logged, there is another reading for them. -/
def HeatTurn (E : Plant σ F) (logs : Bool) (startpoint upper : F) (deadline : Int) (l : List (LogEntry F)) : Prop :=
  ∃ t u t' u' x rest, l = ⟨t, u, .read x⟩ :: ⟨t', u', .request upper⟩ :: rest ∧ Arith.lt x startpoint = true ∧ t' < deadline ∧
    ∃ ys, rest.map LogEntry.call = E.loops ++ ys ++ [.sleep 1000] ∧ (if logs then ∃ y, ys = [.read y] else ys = [])

/-- The end of heating: the reading is not below the startpoint or the deadline has passed, and the lower limit is requested. -/
def HeatEnd (E : Plant σ F) (startpoint lower : F) (deadline : Int) (l : List (LogEntry F)) : Prop :=
  ∃ t u t' u' x rest, l = ⟨t, u, .read x⟩ :: ⟨t', u', .request lower⟩ :: rest ∧ (Arith.lt x startpoint = true → deadline ≤ t') ∧
    rest.map LogEntry.call = E.loops

theorem poll_exact {d now : Int} (h0 : 0 < d) (h1 : d ≤ 2 ^ 24) (hn : |now| ≤ 2 ^ 62) :
    Alarm.poll ⟨d, false⟩ now = .ok (if d ≤ now then (true, ⟨d, true⟩) else (false, ⟨d, false⟩)) := by
  have hd : near d = d := near_eq (by rw [abs_le]; omega)
  have hd' : near (d - 1) = d - 1 := near_eq (by rw [abs_le]; omega)
  unfold Alarm.poll
  rw [msLe_near hn]
  by_cases h : d ≤ now
  · have := near_mono h
    rw [hd] at this
    simp [this, h]
  · have := near_mono (show now ≤ d - 1 by omega)
    rw [hd'] at this
    simp [show ¬ d ≤ near now by omega, h]

theorem timeout_positive : KTime.eq .milli .milli 1800000 0 = .ok false := by decide +kernel

theorem heat_spec {E : Plant σ F} (hE : E.Ticks) (logs : Bool) (upper startpoint : F) {d : Int} (h0 : 0 < d) (h1 : d ≤ 2 ^ 24) :
    ∀ (n j : Nat) (w : σ) (l : List (LogEntry F)), n ≤ j → 0 ≤ E.millis w → E.millis w ≤ 2 ^ 50 → d - E.millis w ≤ 1000 * n →
      ∃ (blocks : List (List (LogEntry F))) (x : F) (t u : Int) (w' : σ), heat E.recorded logs upper startpoint 1800000 (j + 1) ⟨d, false⟩ (w, l) =
          .ok (w', l ++ (blocks.flatten ++ [⟨t, u, .read x⟩])) ∧
        blocks.length ≤ n ∧ (∀ k ∈ blocks, HeatTurn E logs startpoint upper d k) ∧ (Arith.lt x startpoint = true → d ≤ E.millis w') := by
  intro n
  induction n with
  | zero =>
    intro j w l _ hw0 hw1 h
    have hg := hE.get w
    refine ⟨[], (E.get w).1, E.millis w, E.uptime w, (E.get w).2, ?_, by simp, by simp, fun _ => ?_⟩
    · simp only [heat]
      change (if Arith.lt (E.get w).1 startpoint = true then _ else _) = _
      split
      · change (do let r ← Alarm.poll ⟨d, false⟩ (E.millis (E.get w).2); _) = _
        rw [poll_exact h0 h1 (by rw [abs_le]; omega), if_pos (by push_cast at h; omega)]
        simp only [res_bind_ok, timeout_positive, Bool.not_true, Bool.or_false, Bool.false_eq_true, if_false]
        rfl
      · rfl
    · push_cast at h; omega
  | succ n ih =>
    intro j w l hj hw0 hw1 h
    have hg := hE.get w
    obtain ⟨j, rfl⟩ : ∃ i, j = i + 1 := ⟨j - 1, by omega⟩
    by_cases hx : Arith.lt (E.get w).1 startpoint = true
    · by_cases hd : d ≤ E.millis (E.get w).2
      · refine ⟨[], (E.get w).1, E.millis w, E.uptime w, (E.get w).2, ?_, by simp, by simp, fun _ => hd⟩
        rw [heat]
        change (if Arith.lt (E.get w).1 startpoint = true then _ else _) = _
        rw [if_pos hx]
        change (do let r ← Alarm.poll ⟨d, false⟩ (E.millis (E.get w).2); _) = _
        rw [poll_exact h0 h1 (by rw [abs_le]; omega), if_pos hd]
        simp only [res_bind_ok, timeout_positive, Bool.not_true, Bool.or_false, Bool.false_eq_true, if_false]
        rfl
      · obtain ⟨m, hm1, hm2⟩ := E.recorded_tick (E.set upper (E.get w).2)
          (l ++ [⟨E.millis w, E.uptime w, .read (E.get w).1⟩] ++ [⟨E.millis (E.get w).2, E.uptime (E.get w).2, .request upper⟩])
        have hstep : ∀ v, heat E.recorded logs upper startpoint 1800000 (j + 1 + 1) ⟨d, false⟩ (w, l) = v ↔
            heat E.recorded logs upper startpoint 1800000 (j + 1) ⟨d, false⟩ (E.recorded.sleep 1000
              (if logs then (E.recorded.get (E.recorded.tick (E.recorded.set upper (E.recorded.get (w, l)).2))).2
                else E.recorded.tick (E.recorded.set upper (E.recorded.get (w, l)).2))) = v := by
          intro v
          rw [heat]
          change (if Arith.lt (E.get w).1 startpoint = true then _ else _) = _ ↔ _
          rw [if_pos hx]
          change (do let r ← Alarm.poll ⟨d, false⟩ (E.millis (E.get w).2); _) = _ ↔ _
          rw [poll_exact h0 h1 (by rw [abs_le]; omega), if_neg hd]
          simp only [res_bind_ok, timeout_positive, Bool.not_false, Bool.or_false, if_true]
        change E.recorded.tick (E.recorded.set upper (E.recorded.get (w, l)).2) = _ at hm1
        have hms1 := hE.set upper (E.get w).2
        have hms2 := hE.loop (E.set upper (E.get w).2)
        have key : ∀ (w₁ : σ) (ys : List (LogEntry F)), E.millis (E.tick (E.set upper (E.get w).2)) ≤ E.millis w₁ → E.millis w₁ ≤ E.millis (E.tick (E.set upper (E.get w).2)) + 2 ^ 40 →
            (if logs then ∃ y, ys.map LogEntry.call = [.read y] else ys.map LogEntry.call = []) →
            ∃ (blocks : List (List (LogEntry F))) (x : F) (t u : Int) (w' : σ), heat E.recorded logs upper startpoint 1800000 (j + 1) ⟨d, false⟩ (E.recorded.sleep 1000
                (w₁, l ++ [⟨E.millis w, E.uptime w, .read (E.get w).1⟩] ++ [⟨E.millis (E.get w).2, E.uptime (E.get w).2, .request upper⟩] ++ m ++ ys)) =
              .ok (w', l ++ (blocks.flatten ++ [⟨t, u, .read x⟩])) ∧
            blocks.length ≤ n + 1 ∧ (∀ k ∈ blocks, HeatTurn E logs startpoint upper d k) ∧ (Arith.lt x startpoint = true → d ≤ E.millis w') := by
          intro w₁ ys hw hw' hy
          have hms3 := hE.sleep w₁
          obtain ⟨blocks, x, t, u, w', e1, e2, e3, e4⟩ := ih j (E.sleep 1000 w₁) (l ++ [⟨E.millis w, E.uptime w, .read (E.get w).1⟩] ++
            [⟨E.millis (E.get w).2, E.uptime (E.get w).2, .request upper⟩] ++ m ++ ys ++ [⟨E.millis w₁, E.uptime w₁, .sleep 1000⟩]) (by omega) (by omega) (by omega) (by push_cast at h ⊢; omega)
          refine ⟨(⟨E.millis w, E.uptime w, .read (E.get w).1⟩ :: ⟨E.millis (E.get w).2, E.uptime (E.get w).2, .request upper⟩ ::
            (m ++ ys ++ [⟨E.millis w₁, E.uptime w₁, .sleep 1000⟩])) :: blocks, x, t, u, w', ?_, by simpa using e2, ?_, e4⟩
          · change heat E.recorded logs upper startpoint 1800000 (j + 1) ⟨d, false⟩ (E.sleep 1000 w₁, _ ++ [_]) = _
            rw [e1]
            simp
          · intro k hk
            rcases List.mem_cons.mp hk with rfl | hk
            · exact ⟨_, _, _, _, _, _, rfl, hx, by omega, ys.map LogEntry.call, by simp [hm2], hy⟩
            · exact e3 k hk
        cases logs with
        | false =>
          obtain ⟨blocks, x, t, u, w', e1, e⟩ := key (E.tick (E.set upper (E.get w).2)) [] le_rfl (by omega) (by simp)
          refine ⟨blocks, x, t, u, w', (hstep _).mpr ?_, e⟩
          rw [if_neg (by simp), hm1, ← e1, List.append_nil]
        | true =>
          obtain ⟨blocks, x, t, u, w', e1, e⟩ := key (E.get (E.tick (E.set upper (E.get w).2))).2
            [⟨E.millis (E.tick (E.set upper (E.get w).2)), E.uptime (E.tick (E.set upper (E.get w).2)), .read (E.get (E.tick (E.set upper (E.get w).2))).1⟩]
            (hE.get _).1 (hE.get _).2 (by simp)
          refine ⟨blocks, x, t, u, w', (hstep _).mpr ?_, e⟩
          rw [if_pos rfl, hm1, ← e1]
          rfl
    · refine ⟨[], (E.get w).1, E.millis w, E.uptime w, (E.get w).2, ?_, by simp, by simp, fun h => absurd h hx⟩
      rw [heat]
      change (if Arith.lt (E.get w).1 startpoint = true then _ else _) = _
      rw [if_neg hx]
      rfl

/-- C153 (partial), up to 2^24 ms after start-up: before tuning, the process is heated by requesting the upper limit, once a second, until a reading is not below the startpoint or half an hour has passed,
and then the lower limit is requested. It takes at most 1800 turns. Missing: clocks that do not keep time (`C153_rollover_counterexample`, `C153_simulated_counterexample`), rounding later on. -/
theorem C153_preheat_partial {E : Plant σ F} (hE : E.Ticks) (b : Build) (logs : Bool) (lower upper : F) {startpoint : F} (hs : Arith.lt fzero startpoint = true)
    {w : σ} (h0 : 0 ≤ E.millis w) (h1 : E.millis w + 1800000 ≤ 2 ^ 24) {fuel : Nat} (hf : 1801 ≤ fuel) :
    ∃ (blocks : List (List (LogEntry F))) (last : List (LogEntry F)) (w' : σ), preheat E.recorded b logs lower upper startpoint fuel (w, []) = .ok (w', blocks.flatten ++ last) ∧ blocks.length ≤ 1800 ∧
      (∀ k ∈ blocks, HeatTurn E logs startpoint upper (E.millis w + 1800000) k) ∧ HeatEnd E startpoint lower (E.millis w + 1800000) last := by
  obtain ⟨n, rfl⟩ : ∃ n, fuel = n + 1 := ⟨fuel - 1, by omega⟩
  obtain ⟨blocks, x, t, u, w', e1, e2, e3, e4⟩ := heat_spec hE logs upper startpoint (d := E.millis w + 1800000) (by omega) h1 1800 n w [] (by omega) h0 (by omega) (by omega)
  obtain ⟨m, hm1, hm2⟩ := E.recorded_tick (E.set lower w') ([] ++ (blocks.flatten ++ [⟨t, u, .read x⟩]) ++ [⟨E.millis w', E.uptime w', .request lower⟩])
  have ht : KTime.convert .minute .milli 30 = .ok 1800000 := by decide +kernel
  have ha : Alarm.create b (E.millis w) 1800000 false = .ok ⟨E.millis w + 1800000, false⟩ := by
    simp only [Alarm.create, Bool.false_eq_true, if_false, msAdd_near (show |(1800000 : Int)| ≤ 2 ^ 62 by norm_num), near_eq (show |(1800000 : Int)| ≤ 2 ^ 24 by norm_num)]
    rw [i64_small (by rw [abs_le]; omega)]
    rfl
  refine ⟨blocks, ⟨t, u, .read x⟩ :: ⟨E.millis w', E.uptime w', .request lower⟩ :: m, E.tick (E.set lower w'), ?_, e2, e3, t, u, _, _, x, m, rfl, e4, hm2⟩
  · unfold preheat
    rw [if_pos hs, ht]
    change (do let a ← Alarm.create b (E.millis w) 1800000 false; _) = _
    rw [ha]
    simp only [res_bind_ok, e1, res_pure]
    change Except.ok (E.recorded.tick (E.set lower w', _)) = _
    rw [hm1]
    simp

/-- C153: without a startpoint above 0, nothing is done before tuning. -/
theorem C153_none {E : Plant σ F} (b : Build) (logs : Bool) (lower upper : F) {startpoint : F} (hs : Arith.lt fzero startpoint = false) (w : σ) (fuel : Nat) :
    preheat E.recorded b logs lower upper startpoint fuel (w, []) = .ok (w, []) := by
  unfold preheat
  rw [if_neg (by simp [hs])]

theorem heat_stuck {E : Plant σ F} (logs : Bool) (upper startpoint : F) {d : Int} (hget : ∀ w, Arith.lt (E.get w).1 startpoint = true)
    (hr : ∀ w, |E.millis w| ≤ 2 ^ 62) (hd : ∀ w, near (E.millis w) < d) :
    ∀ (n : Nat) (w : σ), heat E logs upper startpoint 1800000 n ⟨d, false⟩ w = .error .fuel := by
  intro n
  induction n with
  | zero => intro w; rfl
  | succ n ih =>
    intro w
    rw [heat]
    change (if Arith.lt (E.get w).1 startpoint = true then _ else _) = _
    rw [if_pos (hget w)]
    change (do let r ← Alarm.poll ⟨d, false⟩ (E.millis (E.get w).2); _) = _
    have hp : Alarm.poll ⟨d, false⟩ (E.millis (E.get w).2) = .ok (false, ⟨d, false⟩) := by
      unfold Alarm.poll
      rw [msLe_near (hr _)]
      simp [hd (E.get w).2]
    rw [hp]
    simp only [res_bind_ok, timeout_positive, Bool.not_false, Bool.or_false, if_true]
    exact ih _

/-- A heater that does not get above 20, where the startpoint is 50. The world is the time in ms since the start. -/
def cold (millis : Nat → Int) : Plant Nat Rat where
  get w := (20, w)
  set _ w := w
  loop := none
  uptime w := w
  sleep d w := w + d.toNat
  millis := millis

/-- C153 is false for the clock of an Arduino, which rolls around after 49.7 days: begun a second before, heating a process that does not reach the
startpoint never ends. -/
theorem C153_rollover_counterexample (b : Build) (logs : Bool) (fuel : Nat) :
    preheat (cold arduinoMillis) b logs 0 255 50 fuel (2 ^ 32 - 1000) = .error .fuel := by
  have h : preheat (cold arduinoMillis) b logs 0 255 50 fuel (2 ^ 32 - 1000) = (do
      let w ← heat (cold arduinoMillis) logs 255 50 1800000 fuel ⟨2 ^ 32 + 1799000, false⟩ (2 ^ 32 - 1000)
      return (cold arduinoMillis).tick ((cold arduinoMillis).set 0 w)) := by
    unfold preheat
    rw [if_pos (by decide +kernel), show KTime.convert .minute .milli 30 = .ok 1800000 by decide +kernel]
    change (do let a ← Alarm.create b ((cold arduinoMillis).millis (2 ^ 32 - 1000)) 1800000 false; _) = _
    rw [show Alarm.create b ((cold arduinoMillis).millis (2 ^ 32 - 1000)) 1800000 false = .ok ⟨2 ^ 32 + 1799000, false⟩ by cases b <;> decide +kernel]
    rfl
  have hb : ∀ w : Nat, 0 ≤ arduinoMillis w ∧ arduinoMillis w < 2 ^ 32 := by
    intro w
    unfold arduinoMillis
    omega
  rw [h, heat_stuck (E := cold arduinoMillis) logs 255 50 (fun _ => show Arith.lt (20 : Rat) 50 = true by decide +kernel)
    (fun w => by have := hb w; change |arduinoMillis w| ≤ _; rw [abs_le]; omega)
    (fun w => by
      have h1 := near_mono (le_of_lt (hb w).2)
      have h2 : near (2 ^ 32) = 2 ^ 32 := by decide +kernel
      change near (arduinoMillis w) < _
      omega)]
  rfl

/-- C153 is false for a process with a clock of its own, if `HAL::millis()` stands still meanwhile, as that of the mock platform does: `uptime` and `sleep` are not used to measure
the half hour, and heating a process that does not reach the startpoint never ends. -/
theorem C153_simulated_counterexample (b : Build) (logs : Bool) (fuel : Nat) :
    preheat (cold fun _ => 0) b logs 0 255 50 fuel 0 = .error .fuel := by
  have h : preheat (cold fun _ => 0) b logs 0 255 50 fuel 0 = (do
      let w ← heat (cold fun _ => 0) logs 255 50 1800000 fuel ⟨1800000, false⟩ 0
      return (cold fun _ => 0).tick ((cold fun _ => 0).set 0 w)) := by
    unfold preheat
    rw [if_pos (by decide +kernel), show KTime.convert .minute .milli 30 = .ok 1800000 by decide +kernel]
    change (do let a ← Alarm.create b 0 1800000 false; _) = _
    rw [show Alarm.create b 0 1800000 false = .ok ⟨1800000, false⟩ by cases b <;> decide +kernel]
    rfl
  rw [h, heat_stuck (E := cold fun _ => 0) logs 255 50 (fun _ => show Arith.lt (20 : Rat) 50 = true by decide +kernel) (fun w => by change |(0 : Int)| ≤ _; norm_num)
    (fun w => by change near 0 < _; rw [near_zero]; norm_num)]
  rfl

/-- A heater that warms by 10 a second while heated. The world: the time in ms, the temperature and whether it is heated. -/
def warm : Plant (Nat × Rat × Bool) Rat where
  get w := (w.2.1, w)
  set v w := (w.1, w.2.1, decide (0 < v))
  loop := some id
  uptime w := w.1
  sleep d w := (w.1 + d.toNat, if w.2.2 then w.2.1 + 10 * d / 1000 else w.2.1 - d / 1000, w.2.2)
  millis w := w.1

theorem warm_ticks : warm.Ticks := by
  constructor
  · intro w; exact ⟨le_rfl, by change (w.1 : Int) ≤ w.1 + 2 ^ 40; omega⟩
  · intro v w; exact ⟨le_rfl, by change (w.1 : Int) ≤ w.1 + 2 ^ 40; omega⟩
  · intro w; exact ⟨le_rfl, by change (w.1 : Int) ≤ w.1 + 2 ^ 40; omega⟩
  · intro w
    change (w.1 : Int) + 1000 ≤ ((w.1 + 1000 : Nat) : Int) ∧ ((w.1 + 1000 : Nat) : Int) ≤ w.1 + 2 ^ 40
    omega

/-- Three seconds of heating. -/
example : (preheat warm.recorded .debug false 0 255 50 1801 ((5000, 25, false), [])).map (fun w => (w.1, w.2.map fun e => (e.ms, e.call))) =
    .ok ((8000, 55, false), [(5000, .read 25), (5000, .request 255), (5000, .loop), (5000, .sleep 1000),
      (6000, .read 35), (6000, .request 255), (6000, .loop), (6000, .sleep 1000),
      (7000, .read 45), (7000, .request 255), (7000, .loop), (7000, .sleep 1000), (8000, .read 55), (8000, .request 0), (8000, .loop)]) := by decide +kernel

/-! ## C154 -/

/-- A turn of tuning: a reading, a request, and the calls until the next reading, with what the clocks show. -/
structure Turn (F : Type) where
  ms : Int
  up : Int
  x : F
  ms' : Int
  up' : Int
  v : F
  rest : List (LogEntry F)

/-- The entries of a turn in the journal. -/
def Turn.entries (k : Turn F) : List (LogEntry F) := ⟨k.ms, k.up, .read k.x⟩ :: ⟨k.ms', k.up', .request k.v⟩ :: k.rest

/-- What is done while waiting for the next reading: `loop` and a sleep of a millisecond, some number of times. -/
def Waits (E : Plant σ F) (l : List (LogEntry F)) : Prop := ∃ i, l.map LogEntry.call = (List.replicate i (E.loops ++ [.sleep 1])).flatten

theorem i64_val {v r : Int} (h : i64 v = .ok r) : r = v := by
  unfold i64 at h
  split at h
  · cases h; rfl
  · cases h

theorem msSub_val {a b r : Int} (h : msSub a b = .ok r) : r = a - near b := by
  unfold msSub KTime.sub at h
  obtain ⟨x, hx, h⟩ := res_bind h
  rw [fromOther_same] at hx
  rw [i64_val h, i64_val hx]

theorem msLt_val {a b : Int} {r : Bool} (h : KTime.lt .milli .milli a b = .ok r) : r = decide (a < near b) := by
  unfold KTime.lt at h
  obtain ⟨x, hx, h⟩ := res_bind h
  rw [fromOther_same] at hx
  cases h
  rw [i64_val hx]

omit [Arith F] in
theorem wait_spec {E : Plant σ F} {interval start : Int} : ∀ (n : Nat) {w : σ} {l : List (LogEntry F)} {r : σ × List (LogEntry F)},
    wait E.recorded interval start n (w, l) = .ok r →
      ∃ m, r.2 = l ++ m ∧ Waits E m ∧ start + interval ≤ E.uptime r.1 + |start| / 2 ^ 24 + |interval| / 2 ^ 24 := by
  intro n
  induction n with
  | zero => intro w l r h; cases h
  | succ n ih =>
    intro w l r h
    rw [wait] at h
    obtain ⟨d, hd, h⟩ := res_bind h
    obtain ⟨c, hc, h⟩ := res_bind h
    replace hd : msSub (E.uptime w) start = .ok d := hd
    rw [msSub_val hd] at hc
    rw [msLt_val hc] at h
    split at h
    · obtain ⟨m, hm1, hm2⟩ := E.recorded_tick w l
      rw [hm1] at h
      replace h : wait E.recorded interval start n (E.sleep 1 (E.tick w), l ++ m ++ [⟨E.millis (E.tick w), E.uptime (E.tick w), .sleep 1⟩]) = .ok r := h
      obtain ⟨m', e1, ⟨i, e2⟩, e3⟩ := ih (w := E.sleep 1 (E.tick w)) (l := l ++ m ++ [⟨E.millis (E.tick w), E.uptime (E.tick w), .sleep 1⟩]) h
      refine ⟨m ++ [⟨E.millis (E.tick w), E.uptime (E.tick w), .sleep 1⟩] ++ m', by simp [e1], ⟨i + 1, ?_⟩, e3⟩
      simp [hm2, e2, List.replicate_succ]
    · rename_i hn
      cases h
      refine ⟨[], by simp, ⟨0, rfl⟩, ?_⟩
      have h1 := near_bound start
      have h2 := near_bound interval
      simp only [decide_eq_true_eq] at hn
      rw [abs_le] at h1 h2
      change _ ≤ E.uptime w + _ + _
      omega

theorem tuning_spec {E : Plant σ F} {b : Build} {lower upper : F} {interval : Int} {fuel : Nat} : ∀ (n : Nat) {t : Tuner F} {p ps : Int} {w : σ} {l : List (LogEntry F)}
    {r : (σ × List (LogEntry F)) × Tuner F}, tuning E.recorded b lower upper interval fuel n t p ps (w, l) = .ok r →
    ∃ (turns : List (Turn F)) (ts : List (Tuner F)) (ms up : Int), r.1.2 = l ++ (turns.flatMap Turn.entries ++ [⟨ms, up, .request fzero⟩]) ∧
      (∀ k ∈ turns, Waits E k.rest) ∧ t.run (turns.map fun k => (k.x, k.up)) = .ok ts ∧ ts.map Tuner.outputValue = turns.map Turn.v ∧
      (∀ u ∈ (t :: ts).dropLast, u.finished = false) ∧ (t :: ts).getLast? = some r.2 ∧ r.2.finished = true ∧
      (turns.map Turn.up ++ [up]).head? = some (E.uptime w) ∧
      (turns.map Turn.up ++ [up]).IsChain fun s s' => s + interval ≤ s' + |s| / 2 ^ 24 + |interval| / 2 ^ 24 := by
  intro n
  induction n with
  | zero => intro t p ps w l r h; cases h
  | succ n ih =>
    intro t p ps w l r h
    rw [tuning] at h
    split at h
    · rename_i hf
      cases h
      exact ⟨[], [], E.millis w, E.uptime w, rfl, by simp, rfl, rfl, by simp, rfl, hf, rfl, by simp⟩
    · rename_i hf
      obtain ⟨q, hq, h⟩ := res_bind h
      obtain ⟨t₁, ht, h⟩ := res_bind h
      obtain ⟨-, -, h⟩ := res_bind h
      obtain ⟨-, -, h⟩ := res_bind h
      obtain ⟨w₁, hw, h⟩ := res_bind h
      replace ht : t.step (E.get w).1 (E.uptime w) = .ok t₁ := ht
      obtain ⟨m, e1, e2, e3⟩ := wait_spec (E := E) (w := E.set t₁.outputValue (E.get w).2) fuel hw
      obtain ⟨w₁, l₁⟩ := w₁
      obtain ⟨turns, ts, ms, up, f1, f2, f3, f4, f5, f6, f7, f8, f9⟩ := ih h
      refine ⟨⟨E.millis w, E.uptime w, (E.get w).1, E.millis (E.get w).2, E.uptime (E.get w).2, t₁.outputValue, m⟩ :: turns, t₁ :: ts, ms, up, ?_, ?_, ?_, ?_, ?_, ?_, f7, rfl, ?_⟩
      · rw [f1]
        replace e1 : l₁ = l ++ [⟨E.millis w, E.uptime w, .read (E.get w).1⟩] ++ [⟨E.millis (E.get w).2, E.uptime (E.get w).2, .request t₁.outputValue⟩] ++ m := e1
        rw [e1]
        simp [Turn.entries]
      · intro k hk
        rcases List.mem_cons.mp hk with rfl | hk
        · exact e2
        · exact f2 k hk
      · rw [List.map_cons, Tuner.run, ht]
        simp only [res_bind_ok, f3, res_pure]
      · simp [f4]
      · intro u hu
        rw [List.dropLast_cons_of_ne_nil (by simp)] at hu
        rcases List.mem_cons.mp hu with rfl | hu
        · simpa using hf
        · exact f5 u hu
      · rw [List.getLast?_cons_cons]; exact f6
      · rw [List.map_cons, List.cons_append, List.isChain_cons]
        refine ⟨fun y hy => ?_, f9⟩
        rw [f8] at hy
        cases hy
        exact e3

omit [Arith F] in
theorem loops_silent {E : Plant σ F} {m : List (LogEntry F)} (h : m.map LogEntry.call = E.loops) {e : LogEntry F} (he : e ∈ m) {v : F} : e.call ≠ .request v := by
  have h1 : e.call ∈ E.loops := h ▸ List.mem_map_of_mem he
  intro h2
  rw [h2] at h1
  unfold loops at h1
  split at h1 <;> simp at h1

theorem heat_requests {E : Plant σ F} {logs : Bool} {upper startpoint : F} {timeout : Int} : ∀ (n : Nat) {a : Alarm} {w : σ} {l : List (LogEntry F)} {r : σ × List (LogEntry F)},
    heat E.recorded logs upper startpoint timeout n a (w, l) = .ok r → ∃ m, r.2 = l ++ m ∧ ∀ e ∈ m, ∀ v, e.call = .request v → v = upper := by
  intro n
  induction n with
  | zero => intro a w l r h; cases h
  | succ n ih =>
    intro a w l r h
    rw [heat] at h
    have hstop : ∃ m, (E.recorded.get (w, l)).2.2 = l ++ m ∧ ∀ e ∈ m, ∀ v, e.call = .request v → v = upper :=
      ⟨_, rfl, by intro e he v hv; rw [List.mem_singleton] at he; subst he; cases hv⟩
    change (if Arith.lt (E.get w).1 startpoint = true then _ else _) = _ at h
    split at h
    · obtain ⟨q, -, h⟩ := res_bind h
      obtain ⟨c, -, h⟩ := res_bind h
      split at h
      · obtain ⟨m, hm1, hm2⟩ := E.recorded_tick (E.set upper (E.get w).2)
          (l ++ [⟨E.millis w, E.uptime w, .read (E.get w).1⟩] ++ [⟨E.millis (E.get w).2, E.uptime (E.get w).2, .request upper⟩])
        replace hm1 : E.recorded.tick (E.recorded.set upper (E.recorded.get (w, l)).2) = _ := hm1
        have key : ∀ (w₁ : σ) (ys : List (LogEntry F)), (∀ e ∈ ys, ∀ v, e.call ≠ .request v) →
            heat E.recorded logs upper startpoint timeout n q.2 (E.recorded.sleep 1000 (w₁, l ++ [⟨E.millis w, E.uptime w, .read (E.get w).1⟩] ++
              [⟨E.millis (E.get w).2, E.uptime (E.get w).2, .request upper⟩] ++ m ++ ys)) = .ok r →
            ∃ m, r.2 = l ++ m ∧ ∀ e ∈ m, ∀ v, e.call = .request v → v = upper := by
          intro w₁ ys hy hr
          obtain ⟨m', f1, f2⟩ := ih (w := E.sleep 1000 w₁) (l := l ++ [⟨E.millis w, E.uptime w, .read (E.get w).1⟩] ++
              [⟨E.millis (E.get w).2, E.uptime (E.get w).2, .request upper⟩] ++ m ++ ys ++ [⟨E.millis w₁, E.uptime w₁, .sleep 1000⟩]) hr
          refine ⟨[⟨E.millis w, E.uptime w, .read (E.get w).1⟩] ++ [⟨E.millis (E.get w).2, E.uptime (E.get w).2, .request upper⟩] ++ m ++ ys ++
            [⟨E.millis w₁, E.uptime w₁, .sleep 1000⟩] ++ m', by rw [f1]; simp, ?_⟩
          intro e he v hv
          simp only [List.mem_append, List.mem_singleton] at he
          rcases he with ((((rfl | rfl) | he) | he) | rfl) | he
          · cases hv
          · cases hv; rfl
          · exact absurd hv (loops_silent hm2 he)
          · exact absurd hv (hy e he v)
          · cases hv
          · exact f2 e he v hv
        change heat E.recorded logs upper startpoint timeout n q.2 (E.recorded.sleep 1000 (if logs = true then
          (E.recorded.get (E.recorded.tick (E.recorded.set upper (E.recorded.get (w, l)).2))).2 else
            E.recorded.tick (E.recorded.set upper (E.recorded.get (w, l)).2))) = .ok r at h
        rw [hm1] at h
        cases logs with
        | false =>
          refine key (E.tick (E.set upper (E.get w).2)) [] (by simp) ?_
          rw [List.append_nil]
          exact h
        | true =>
          refine key (E.get (E.tick (E.set upper (E.get w).2))).2 [⟨E.millis (E.tick (E.set upper (E.get w).2)), E.uptime (E.tick (E.set upper (E.get w).2)),
            .read (E.get (E.tick (E.set upper (E.get w).2))).1⟩] ?_ h
          intro e he v hv
          rw [List.mem_singleton] at he
          subst he
          cases hv
      · cases h; exact hstop
    · cases h; exact hstop

theorem preheat_requests {E : Plant σ F} {b : Build} {logs : Bool} {lower upper startpoint : F} {fuel : Nat} {w : σ} {l : List (LogEntry F)} {r : σ × List (LogEntry F)}
    (h : preheat E.recorded b logs lower upper startpoint fuel (w, l) = .ok r) :
    ∃ m, r.2 = l ++ m ∧ ∀ e ∈ m, ∀ v, e.call = .request v → v = lower ∨ v = upper := by
  unfold preheat at h
  split at h
  · obtain ⟨T, -, h⟩ := res_bind h
    obtain ⟨a, -, h⟩ := res_bind h
    obtain ⟨⟨w', l'⟩, hw, h⟩ := res_bind h
    obtain ⟨m, e1, e2⟩ := heat_requests fuel hw
    replace e1 : l' = l ++ m := e1
    obtain ⟨m', f1, f2⟩ := E.recorded_tick (E.set lower w') (l' ++ [⟨E.millis w', E.uptime w', .request lower⟩])
    replace f1 : E.recorded.tick (E.recorded.set lower (w', l')) = _ := f1
    rw [f1] at h
    cases h
    refine ⟨m ++ [⟨E.millis w', E.uptime w', .request lower⟩] ++ m', by rw [e1]; simp, ?_⟩
    intro e he v hv
    simp only [List.mem_append, List.mem_singleton] at he
    rcases he with (he | rfl) | he
    · exact .inr (e2 e he v hv)
    · cases hv; exact .inl rfl
    · exact absurd hv (loops_silent f2 he)
  · cases h
    exact ⟨[], by simp, by simp⟩

/-- C154 (partial): if autotuning ends, its calls are those of preheating, in which only the two limits are requested, followed by the turns of tuning and the request for 0. In each turn, a reading is
followed by a request for one of the limits, and by `loop` and `sleep` until the sample interval has passed. The tuner is given the readings with the times of the turns, and
the process has oscillated exactly the configured number of times. Missing: the time between readings can be shorter than the sample interval by one part in 2^24 of the time since start-up
(`C154_early_counterexample`), and 0 need not be within the limits (`C47_zero_counterexample`). -/
theorem C154_autotune_partial {E : Plant σ F} {b : Build} {logs : Bool} {lower upper : F} {interval : Int} {c : Config F} {fuel : Nat} {w : σ} {r : (σ × List (LogEntry F)) × Tuner F}
    (h : autotune E.recorded b logs lower upper interval c fuel (w, []) = .ok r) :
    ∃ (heating : List (LogEntry F)) (turns : List (Turn F)) (ms up now : Int), r.1.2 = heating ++ turns.flatMap Turn.entries ++ [⟨ms, up, .request fzero⟩] ∧
      (∀ e ∈ heating, ∀ v, e.call = .request v → v = lower ∨ v = upper) ∧
      (∀ k ∈ turns, (k.v = lower ∨ k.v = upper) ∧ Waits E k.rest) ∧
      (turns.map Turn.up ++ [up]).head? = some now ∧
      ((turns.map Turn.up ++ [up]).IsChain fun s s' => s + interval ≤ s' + |s| / 2 ^ 24 + |interval| / 2 ^ 24) ∧
      (∃ ts, (Tuner.start c.setpoint c.hysteresis interval lower upper c.mode c.cycles now).run (turns.map fun k => (k.x, k.up)) = .ok ts ∧
        (1 ≤ c.cycles → ts.getLast? = some r.2)) ∧
      (1 ≤ c.cycles → Tuner.Band c.setpoint c.hysteresis →
        (oscillations (Arith.add c.setpoint c.hysteresis) (Arith.sub c.setpoint c.hysteresis) true (turns.map Turn.x) : Int) = c.cycles) := by
  unfold autotune at h
  obtain ⟨⟨w₁, l₁⟩, hw, h⟩ := res_bind h
  obtain ⟨m, e1, e2⟩ := preheat_requests hw
  replace e1 : l₁ = m := by simpa using e1
  obtain ⟨turns, ts, ms, up, f1, f2, f3, f4, f5, f6, f7, f8, f9⟩ := tuning_spec fuel h
  have hts : 1 ≤ c.cycles → ts.getLast? = some r.2 := by
    intro hc
    cases ts with
    | nil =>
      simp only [List.getLast?_singleton, Option.some.injEq] at f6
      rw [← f6] at f7
      simp only [Tuner.finished, Tuner.start, decide_eq_true_eq, ge_iff_le] at f7
      have f7' : c.cycles ≤ 0 := f7
      omega
    | cons u ts => rw [← f6, List.getLast?_cons_cons]
  refine ⟨m, turns, ms, up, E.uptime w₁, by rw [f1, e1]; simp, e2, ?_, f8, f9, ⟨ts, f3, hts⟩, ?_⟩
  · intro k hk
    refine ⟨?_, f2 k hk⟩
    have hv : k.v ∈ ts.map Tuner.outputValue := f4 ▸ List.mem_map_of_mem hk
    obtain ⟨u, hu, hu'⟩ := List.mem_map.mp hv
    rw [← hu']
    exact C47_outputs f3 u hu
  · intro hc hb
    have := C47_cycles hb hc f3 ?_ r.2 (hts hc)
    · rw [← this.2.mp f7, List.map_map]; rfl
    · intro u hu
      apply f5
      cases ts with
      | nil => cases hu
      | cons u' ts => rw [List.dropLast_cons_of_ne_nil (by simp)]; exact List.mem_cons_of_mem _ hu

omit [Arith F] in
theorem wait_ends {E : Plant σ F} {start interval d : Int} (hs : |start| ≤ 2 ^ 24) (hi : |interval| ≤ 2 ^ 24) (hd : d ≤ 2 ^ 40)
    (hE : ∀ w, E.uptime w + 1 ≤ E.uptime (E.sleep 1 (E.tick w)) ∧ E.uptime (E.sleep 1 (E.tick w)) ≤ E.uptime w + d) :
    ∀ (n : Nat) {w : σ}, start ≤ E.uptime w → E.uptime w < start + interval + d → start + interval - E.uptime w ≤ n →
      ∃ w', wait E interval start (n + 1) w = .ok w' ∧ start + interval ≤ E.uptime w' ∧ E.uptime w' < start + interval + d := by
  intro n
  induction n with
  | zero =>
    intro w h1 h2 h3
    refine ⟨w, ?_, by omega, h2⟩
    rw [wait, msSub_near (hs.trans (by norm_num)), near_eq hs, i64_ok (by rw [abs_le] at *; unfold InI64; omega), res_bind_ok, KTime.lt, fromOther_mid _ (hi.trans (by norm_num)), near_eq hi]
    simp only [res_bind_ok, res_pure]
    rw [if_neg (by simp only [decide_eq_true_eq]; omega)]
  | succ n ih =>
    intro w h1 h2 h3
    have hw := hE w
    rw [wait, msSub_near (hs.trans (by norm_num)), near_eq hs, i64_ok (by rw [abs_le] at *; unfold InI64; omega), res_bind_ok, KTime.lt, fromOther_mid _ (hi.trans (by norm_num)), near_eq hi]
    simp only [res_bind_ok, res_pure]
    by_cases h : E.uptime w - start < interval
    · rw [if_pos (by simpa using h)]
      exact ih (by omega) (by omega) (by push_cast at h3; omega)
    · rw [if_neg (by simpa using h)]
      exact ⟨w, rfl, by omega, h2⟩

omit [Arith F] in
/-- C154 (partial), up to 2^24 ms after start-up: if `loop` and `sleep(1)` take at least 1 ms and at most `d` ms together, waiting ends, once the sample interval has passed and less than `d` ms later. -/
theorem C154_punctual_partial {E : Plant σ F} {start interval d : Int} (hs : |start| ≤ 2 ^ 24) (hi : |interval| ≤ 2 ^ 24) (hd : d ≤ 2 ^ 40)
    (hE : ∀ w, E.uptime w + 1 ≤ E.uptime (E.sleep 1 (E.tick w)) ∧ E.uptime (E.sleep 1 (E.tick w)) ≤ E.uptime w + d)
    {w : σ} (h1 : start ≤ E.uptime w) (h2 : E.uptime w < start + interval) {fuel : Nat} (hf : interval < fuel) :
    ∃ w', wait E interval start fuel w = .ok w' ∧ start + interval ≤ E.uptime w' ∧ E.uptime w' < start + interval + d := by
  obtain ⟨n, rfl⟩ : ∃ n, fuel = n + 1 := ⟨fuel - 1, by omega⟩
  have := hE w
  exact wait_ends hs hi hd hE n h1 (by omega) (by push_cast at hf; omega)

/-- A process that gains 1 per ms when driven and loses 1 per ms otherwise. -/
def swinging : Plant (Nat × Rat × Bool) Rat where
  get w := (w.2.1, w)
  set v w := (w.1, w.2.1, decide (0 < v))
  loop := none
  uptime w := w.1
  sleep d w := (w.1 + d.toNat, if w.2.2 then w.2.1 + d else w.2.1 - d, w.2.2)
  millis w := w.1

/-- Its tuning: two oscillations around 50. -/
def swingConfig : Config Rat := { setpoint := 50, startpoint := 0, hysteresis := 5, cycles := 2, mode := .basic }

/-- Times and readings of the turns, and the requests, in the journal of tuning at the given time with a sample interval of 10 ms. -/
def swings (time : Nat) : Res (List (Int × Rat) × List Rat) :=
  (autotune swinging.recorded .debug false 0 255 10 swingConfig 100 ((time, 30, false), [])).map fun r =>
    (r.1.2.filterMap fun e => match e.call with | .read x => some (e.up, x) | _ => none,
     r.1.2.filterMap fun e => match e.call with | .request v => some v | _ => none)

/-- Tuning early on: a reading every 10 ms. -/
example : swings 1000 = .ok ([(1000, 30), (1010, 40), (1020, 50), (1030, 60), (1040, 50), (1050, 40), (1060, 50), (1070, 60), (1080, 50), (1090, 40)],
    [255, 255, 255, 0, 0, 255, 255, 0, 0, 0, 0]) := by decide +kernel

/-- C154 is false for the time between readings: later than 2^24 ms after start-up, with a sample interval of 10 ms, the second reading is made after 9 ms. -/
theorem C154_early_counterexample : (swings 16777217).map (·.1.take 3) = .ok [(16777217, 30), (16777226, 39), (16777236, 49)] := by decide +kernel

end Plant
end Spine
