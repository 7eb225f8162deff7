import Verif.Model.Narrow
import Verif.Props.Timers
/-!
# C163: kernel time on targets whose `time_t` has 32 bits
-/

namespace Spine
namespace Narrow

open F32

/-- The values such a `time_t` can hold. -/
def In32 (n : Int) : Prop := -2 ^ 31 ≤ n ∧ n < 2 ^ 31

theorem i32_ok {n : Int} (h : In32 n) : i32 n = .ok n := if_pos h

theorem i32_bad {n : Int} (h : ¬ In32 n) : i32 n = .error .ub := if_neg h

theorem i32_iff {n r : Int} : i32 n = .ok r ↔ i64 n = .ok r ∧ In32 r := by
  unfold i32 i64 In32
  split
  · rw [if_pos (by omega)]
    constructor
    · intro h; cases h; exact ⟨rfl, by assumption⟩
    · intro h; exact h.1
  · constructor
    · intro h; cases h
    · rintro ⟨h1, h2⟩
      split at h1
      · cases h1; contradiction
      · cases h1

theorem fromOther_iff {a m : Mag} {v r : Int} : fromOther a m v = .ok r ↔ KTime.fromOther a m v = .ok r ∧ In32 r := i32_iff

theorem res_bind_iff {α β : Type} {x : Res α} {f : α → Res β} {y : β} : (x >>= f) = .ok y ↔ ∃ a, x = .ok a ∧ f a = .ok y := by
  cases x with
  | error e => simp
  | ok a => simp

/-- C163: an operation on kernel times has a result with a 32-bit `time_t` exactly if it has one with a 64-bit `time_t` and both the converted operand and the
result are in the range; and then it is the same result. -/
theorem C163_operations (mine other : Mag) (v w : Int) :
    (∀ r, convert other mine w = .ok r ↔ KTime.convert other mine w = .ok r ∧ In32 r) ∧
    (∀ r, add mine other v w = .ok r ↔ (∃ x, convert other mine w = .ok x) ∧ KTime.add mine other v w = .ok r ∧ In32 r) ∧
    (∀ r, sub mine other v w = .ok r ↔ (∃ x, convert other mine w = .ok x) ∧ KTime.sub mine other v w = .ok r ∧ In32 r) ∧
    (∀ r, le mine other v w = .ok r ↔ (∃ x, convert other mine w = .ok x) ∧ KTime.le mine other v w = .ok r) ∧
    (∀ r, ge mine other v w = .ok r ↔ (∃ x, convert other mine w = .ok x) ∧ KTime.ge mine other v w = .ok r) ∧
    (∀ r, lt mine other v w = .ok r ↔ (∃ x, convert other mine w = .ok x) ∧ KTime.lt mine other v w = .ok r) ∧
    (∀ r, gt mine other v w = .ok r ↔ (∃ x, convert other mine w = .ok x) ∧ KTime.gt mine other v w = .ok r) ∧
    (∀ r, eq mine other v w = .ok r ↔ (∃ x, convert other mine w = .ok x) ∧ KTime.eq mine other v w = .ok r) := by
  have key : ∀ {β : Type} (f g : Int → Res β) (P : β → Prop), (∀ x r, f x = .ok r ↔ g x = .ok r ∧ P r) → ∀ r,
      (fromOther other mine w >>= f) = .ok r ↔ (∃ x, convert other mine w = .ok x) ∧ (KTime.fromOther other mine w >>= g) = .ok r ∧ P r := by
    intro β f g P h r
    rw [res_bind_iff, res_bind_iff]
    constructor
    · rintro ⟨a, h1, h2⟩
      rw [h] at h2
      exact ⟨⟨a, h1⟩, ⟨a, (fromOther_iff.mp h1).1, h2.1⟩, h2.2⟩
    · rintro ⟨⟨a, h1⟩, ⟨c, h2, h3⟩, h4⟩
      have e : a = c := Except.ok.inj ((fromOther_iff.mp h1).1.symm.trans h2)
      exact ⟨a, h1, (h a r).mpr ⟨e ▸ h3, h4⟩⟩
  have key' : ∀ (p : Int → Bool) r, (fromOther other mine w >>= fun x => (pure (p x) : Res Bool)) = .ok r ↔
      (∃ x, convert other mine w = .ok x) ∧ (KTime.fromOther other mine w >>= fun x => (pure (p x) : Res Bool)) = .ok r := by
    intro p r
    have := key (fun x => (pure (p x) : Res Bool)) (fun x => pure (p x)) (fun _ => True) (fun x r => by simp) r
    simpa using this
  exact ⟨fun r => i32_iff, key _ _ _ fun x r => i32_iff, key _ _ _ fun x r => i32_iff, key' _, key' _, key' _, key' _, key' _⟩

theorem i32_error {n : Int} {f : Fault} (h : i32 n = .error f) : f = .ub := by
  unfold i32 at h
  split at h <;> cases h
  rfl

/-! ## Timers in the first 24 days -/

theorem near_in {v : Int} (h0 : -2 ^ 31 ≤ v) (h1 : v < 2 ^ 31 - 64) : In32 (near v) := by
  have a := near_mono h0
  have c := near_mono (show v ≤ 2 ^ 31 - 65 by omega)
  have e1 : near (-2 ^ 31) = -2 ^ 31 := by decide +kernel
  have e2 : near (2 ^ 31 - 65) = 2 ^ 31 - 128 := by decide +kernel
  rw [e1] at a
  rw [e2] at c
  exact ⟨a, by omega⟩

theorem fromOther_near {m : Mag} {v : Int} (h0 : -2 ^ 31 ≤ v) (h1 : v < 2 ^ 31 - 64) : fromOther m m v = .ok (near v) :=
  fromOther_iff.mpr ⟨fromOther_mid m (by rw [abs_le]; omega), near_in h0 h1⟩

theorem poll_same {a : Alarm} {now : Int} (h0 : -2 ^ 31 ≤ now) (h1 : now < 2 ^ 31 - 64) : poll a now = a.poll now := by
  unfold poll Alarm.poll
  have e : le .milli .milli a.future now = msLe a.future now := by
    rw [msLe_near (by rw [abs_le]; omega), le, fromOther_near h0 h1]
    rfl
  rw [e]

theorem run_same : ∀ (ts : List Int) (a : Alarm), (∀ t ∈ ts, -2 ^ 31 ≤ t ∧ t < 2 ^ 31 - 64) → run a ts = a.run ts
  | [], _, _ => rfl
  | t :: ts, a, h => by
    have ht := h t List.mem_cons_self
    unfold run Alarm.run
    rw [poll_same ht.1 ht.2]
    cases a.poll t with
    | error e => simp only [res_bind_error]
    | ok r => simp only [res_bind_ok, run_same ts r.2 fun x hx => h x (List.mem_cons_of_mem _ hx)]

theorem millis_eq {time : Nat} (h : time < 2 ^ 31) : millis time = time := by
  unfold millis toInt32
  omega

/-- C163 (partial), alarms: set within the first 24 days for a time within them too, and asked at any times of theirs but the last 64 ms, an alarm gives the same answers as with a 64-bit
`time_t`: once expired it stays expired, it never answers a part in 2^24 of the uptime and of the delay too early or too late, and it is exact for the first 4 hours.
Missing: the end of the range of the clock (`C163_end_counterexample`, `C163_set_counterexample`, `C163_stuck_counterexample`). -/
theorem C163_alarm_partial (b : Build) {start delay : Nat} (ts : List Nat) (hend : start + delay + delay / 2 ^ 24 < 2 ^ 31) (hd : delay < 2 ^ 31 - 64)
    (hs : ts.Pairwise (· ≤ ·)) (ht : ∀ t ∈ ts, t < 2 ^ 31 - 64) :
    ∃ a answer, create b (millis start) delay false = .ok a ∧ Alarm.create b start delay false = .ok a ∧ run a (ts.map millis) = .ok (ts.map answer) ∧
      a.run (ts.map fun t : Nat => (t : Int)) = .ok (ts.map answer) ∧
      (∀ t t', t ≤ t' → answer t = true → answer t' = true) ∧
      (∀ t, (answer t = true → start + delay ≤ t + t / 2 ^ 24 + delay / 2 ^ 24) ∧ (start + delay + delay / 2 ^ 24 + t / 2 ^ 24 ≤ t → answer t = true)) ∧
      ((delay ≤ 2 ^ 24) → ∀ t, t ≤ 2 ^ 24 → (answer t = true ↔ start + delay ≤ t)) := by
  have hn := near_bound delay
  have hdabs : |(delay : Int)| = delay := abs_of_nonneg (by omega)
  rw [hdabs] at hn
  have hn' := abs_le.mp hn
  have hn0 : 0 ≤ near delay := by
    have := near_mono (show (0 : Int) ≤ delay by omega)
    rwa [near_zero] at this
  have hstart : millis start = start := millis_eq (by omega)
  have e1 : add .milli .milli start delay = .ok (start + near delay) := by
    rw [add, fromOther_near (by omega) (by omega), res_bind_ok, i32_ok ⟨by omega, by omega⟩]
  have e2 : msAdd start delay = .ok (start + near delay) := by
    rw [msAdd_near (by rw [hdabs]; omega), i64_ok ⟨by omega, by omega⟩]
  have hmap : ts.map millis = ts.map fun t : Nat => (t : Int) := List.map_congr_left fun t h => millis_eq (by have := ht t h; omega)
  have hrange : ∀ x ∈ ts.map (fun t : Nat => (t : Int)), -2 ^ 31 ≤ x ∧ x < 2 ^ 31 - 64 := by
    intro x hx
    obtain ⟨t, h, rfl⟩ := List.mem_map.mp hx
    have := ht t h
    omega
  have hrun : (Alarm.mk (start + near delay) false).run (ts.map fun t : Nat => (t : Int)) =
      .ok (ts.map fun t : Nat => decide ((start : Int) + near delay ≤ near t)) := by
    rw [Alarm.run_spec _ _ ?_ ?_ (fun h => by cases h), List.map_map]
    · rfl
    · rw [List.pairwise_map]
      exact hs.imp (by intro x y h; omega)
    · intro x hx
      have := hrange x hx
      rw [abs_le]; omega
  refine ⟨⟨start + near delay, false⟩, fun t => decide ((start : Int) + near delay ≤ near t), ?_, ?_, ?_, hrun, ?_, ?_, ?_⟩
  · rw [create, hstart, if_neg (by decide), e1]
    rfl
  · rw [Alarm.create, if_neg (by decide), e2]
    rfl
  · rw [hmap, run_same _ _ hrange, hrun]
  · intro t t' h h1
    rw [decide_eq_true_iff] at h1 ⊢
    exact h1.trans (near_mono (by exact_mod_cast h))
  · intro t
    have := near_bound t
    rw [abs_of_nonneg (a := (t : Int)) (by omega), abs_le] at this
    rw [decide_eq_true_iff]
    omega
  · intro h1 t h2
    rw [decide_eq_true_iff, near_eq (by rw [hdabs]; omega), near_eq (by rw [abs_of_nonneg (by omega)]; omega)]
    omega

/-- Non-vacuity: an alarm of 200 ms, set after a second; and one of a day, set after 20 days. -/
example : (∃ a, create .debug (millis 1000) 200 false = .ok a ∧ run a ([1000, 1199, 1200, 90000].map millis) = .ok [false, false, true, true]) ∧
    ∃ a, create .debug (millis 1728000000) 86400000 false = .ok a ∧ run a ([1728000000, 1814399000, 1814401000].map millis) = .ok [false, false, true] :=
  ⟨⟨⟨1200, false⟩, by decide +kernel, by decide +kernel⟩, ⟨⟨1814400000, false⟩, by decide +kernel, by decide +kernel⟩⟩

/-- C163 is false in the last 64 ms before the uptime of 2^31 ms (24 days): asking any pending alarm is undefined. -/
theorem C163_end_counterexample {a : Alarm} (he : a.expired = false) {time : Nat} (h0 : 2 ^ 31 - 64 ≤ time) (h1 : time < 2 ^ 31) :
    poll a (millis time) = .error .ub ∧ ∃ r, a.poll time = .ok r := by
  have hn : near (time : Int) = 2 ^ 31 := by
    have a1 := near_mono (show (2 ^ 31 - 64 : Int) ≤ time by omega)
    have a2 := near_mono (show (time : Int) ≤ 2 ^ 31 by omega)
    rw [show near (2 ^ 31 - 64) = 2 ^ 31 by decide +kernel] at a1
    rw [show near (2 ^ 31) = 2 ^ 31 by decide +kernel] at a2
    omega
  constructor
  · have : fromOther .milli .milli time = .error .ub := by
      unfold fromOther
      rw [ratio_same, one_mul, rnd_rnd]
      exact i32_bad (n := near time) (by rw [hn]; unfold In32; omega)
    rw [poll, he, if_neg (by decide), millis_eq h1, le, this]
    rfl
  · rw [Alarm.poll, he, if_neg (by decide), msLe_near (by rw [abs_le]; omega), res_bind_ok]
    split
    · exact ⟨_, rfl⟩
    · exact ⟨_, rfl⟩

/-- C163 is false for alarms that are due at an uptime of 2^31 ms (24 days) or more: setting them is undefined. -/
theorem C163_set_counterexample (b : Build) {start delay : Nat} (hd : delay ≤ 2 ^ 24) (h0 : start < 2 ^ 31) (h1 : 2 ^ 31 ≤ start + delay) :
    create b (millis start) delay false = .error .ub ∧ ∃ a, Alarm.create b start delay false = .ok a := by
  have hn : near (delay : Int) = delay := near_eq (by rw [abs_of_nonneg (by omega)]; omega)
  constructor
  · rw [create, millis_eq h0, if_neg (by decide), add, fromOther_near (by omega) (by omega), res_bind_ok, hn, i32_bad (by unfold In32; omega)]
    rfl
  · rw [Alarm.create, if_neg (by decide), msAdd_near (by rw [abs_of_nonneg (by omega)]; omega), hn, i64_ok ⟨by omega, by omega⟩]
    exact ⟨_, rfl⟩

example : create .release (millis (2 ^ 31 - 1000)) 1000 false = .error .ub := by decide +kernel

/-- C163 is false after 24 days: an alarm still pending then does not fire for another 24 days, however often it is asked; with a 64-bit `time_t` it is overdue. -/
theorem C163_stuck_counterexample {a : Alarm} (he : a.expired = false) (hf : 0 < a.future) : ∀ ts : List Nat, (∀ t ∈ ts, 2 ^ 31 ≤ t ∧ t < 2 ^ 32) →
    run a (ts.map millis) = .ok (ts.map fun _ => false)
  | [], _ => rfl
  | t :: ts, h => by
    obtain ⟨h1, h2⟩ := h t List.mem_cons_self
    have e : millis t = (t : Int) - 2 ^ 32 := by unfold millis toInt32; omega
    have hn : near (millis t) ≤ 0 := by
      have := near_mono (show millis t ≤ 0 by rw [e]; omega)
      rwa [near_zero] at this
    have hp : poll a (millis t) = .ok (false, a) := by
      rw [poll_same (by rw [e]; omega) (by rw [e]; omega), Alarm.poll, he, if_neg (by decide), msLe_near (by rw [e, abs_le]; omega), res_bind_ok, decide_eq_false (by omega)]
      rfl
    rw [List.map_cons, run, hp]
    simp only [res_bind_ok, C163_stuck_counterexample he hf ts fun x hx => h x (List.mem_cons_of_mem _ hx)]
    rfl

/-- Non-vacuity: an alarm that was due half a second before. -/
example : ∃ a, create .debug (millis (2 ^ 31 - 1000)) 500 false = .ok a ∧ run a ([2 ^ 31 + 10, 2 ^ 31 + 86400000].map millis) = .ok [false, false] ∧
    a.run [2 ^ 31 + 10] = .ok [true] :=
  ⟨⟨2 ^ 31 - 500, false⟩, by decide +kernel, by decide +kernel, by decide +kernel⟩

/-- C163 (partial), interval timers: an answer at an uptime within the first 24 days, except for the last 64 ms, is that of a timer with a 64-bit `time_t`, if the next expiry is within them too. -/
theorem C163_interval_partial {t : Interval} {now : Nat} (hp : 0 ≤ t.previous) (hp' : t.previous < 2 ^ 31 - 64) (hi : 0 ≤ t.interval) (hi' : t.interval ≤ 2 ^ 24)
    (hnext : t.previous + t.interval < 2 ^ 31) (hn : now < 2 ^ 31 - 64) : tick t (millis now) = t.poll now := by
  have b1 : 0 ≤ near t.previous := by
    have := near_mono hp
    rwa [near_zero] at this
  have b2 := near_in (v := t.previous) (by omega) hp'
  have e3 : near t.interval = t.interval := near_eq (by rw [abs_of_nonneg hi]; omega)
  rw [millis_eq (by omega)]
  unfold tick Interval.poll
  have s1 : sub .milli .milli now t.previous = msSub now t.previous := by
    rw [sub, fromOther_near (by omega) hp', res_bind_ok, msSub_near (by rw [abs_le]; omega), i32_ok (by unfold In32 at *; omega), i64_ok (by unfold InI64; unfold In32 at *; omega)]
  have s2 : ∀ d, gt .milli .milli d t.interval = msGt d t.interval := by
    intro d
    rw [gt, fromOther_near (by omega) (by omega), res_bind_ok, msGt_near (by rw [abs_le]; omega), res_pure]
  have s3 : add .milli .milli t.previous t.interval = msAdd t.previous t.interval := by
    rw [add, fromOther_near (by omega) (by omega), res_bind_ok, msAdd_near (by rw [abs_le]; omega), e3, i32_ok ⟨by omega, hnext⟩, i64_ok ⟨by omega, by omega⟩]
  rw [s1, s3]
  simp only [s2]

/-- C163 is false after 24 days: an interval timer started before does not expire for another 24 days, however often it is asked, and asking can be undefined. -/
theorem C163_interval_counterexample {t : Interval} (hp : 0 ≤ t.previous) (hp' : t.previous < 2 ^ 31 - 64) (hi : 0 ≤ t.interval) (hi' : t.interval ≤ 2 ^ 24) :
    ∀ ts : List Nat, (∀ x ∈ ts, 2 ^ 31 ≤ x ∧ x < 2 ^ 32) → ticks t (ts.map millis) = .ok (ts.map fun _ => false, t) ∨ ticks t (ts.map millis) = .error .ub
  | [], _ => .inl rfl
  | x :: ts, h => by
    obtain ⟨h1, h2⟩ := h x List.mem_cons_self
    have e : millis x = (x : Int) - 2 ^ 32 := by unfold millis toInt32; omega
    have b1 : 0 ≤ near t.previous := by
      have := near_mono hp
      rwa [near_zero] at this
    have e3 : near t.interval = t.interval := near_eq (by rw [abs_of_nonneg hi]; omega)
    have hq : tick t (millis x) = .ok (false, t) ∨ tick t (millis x) = .error .ub := by
      unfold tick
      rw [sub, fromOther_near (by omega) hp', res_bind_ok]
      by_cases hr : In32 (millis x - near t.previous)
      · rw [i32_ok hr, res_bind_ok, gt, fromOther_near (by omega) (by omega), res_bind_ok, e3, res_pure, res_bind_ok, decide_eq_false (by rw [e]; omega)]
        exact .inl rfl
      · rw [i32_bad hr]
        exact .inr rfl
    rw [List.map_cons, ticks]
    rcases hq with hq | hq
    · rw [hq]
      simp only [res_bind_ok]
      rcases C163_interval_counterexample hp hp' hi hi' ts fun y hy => h y (List.mem_cons_of_mem _ hy) with h' | h'
      · rw [h']; exact .inl rfl
      · rw [h']; exact .inr rfl
    · rw [hq]
      exact .inr rfl

/-- Both happen: a timer of a minute, started after a second and after 23 days, asked after 25 days and after 49 days. -/
example : ticks ⟨millis 1000, 60000, false⟩ [millis 4233600000] = .ok ([false], ⟨1000, 60000, false⟩) ∧
    ticks ⟨millis 1987200000, 60000, false⟩ [millis 2160000000] = .error .ub ∧
    (Interval.poll ⟨1000, 60000, false⟩ 4233600000).map (·.1) = .ok true ∧ (Interval.poll ⟨1987200000, 60000, false⟩ 2160000000).map (·.1) = .ok true := by
  decide +kernel

/-- Non-vacuity of `C163_interval_partial`: a timer of a minute, 20 days after the start. -/
example : tick ⟨1728000000, 60000, true⟩ (millis 1728070000) = .ok (true, ⟨1728060000, 60000, true⟩) := by decide +kernel

/-! ## Conversions -/

/-- C163 is false for conversions to smaller units: a time of 36 minutes or more cannot be converted to µs, nor be written as text, which converts to µs first.
With a 64-bit `time_t` they can (`C32`, `C86`). -/
theorem C163_text_counterexample {m : Mag} {v : Int} (hm : m ≠ .micro) (h : 2160 ≤ m.seconds * (v : Rat)) :
    convert m .micro v = .error .ub ∧ repr m v = .error .ub := by
  have key : ∀ t : Int, t ≤ v → 0 ≤ KTime.ratio m .micro → 2 ^ 31 ≤ roundAway (rnd (KTime.ratio m .micro * rnd t)) → convert m .micro v = .error .ub := by
    intro t ht h0 h1
    refine i32_bad fun hc => ?_
    have := roundAway_mono (rnd_mono (mul_le_mul_of_nonneg_left (rnd_mono (show (t : Rat) ≤ v by exact_mod_cast ht)) h0))
    exact absurd (h1.trans this) (by have := hc.2; omega)
  have hc : convert m .micro v = .error .ub := by
    cases m with
    | micro => exact absurd rfl hm
    | milli =>
      refine key 2160000 ?_ (by decide +kernel) (by decide +kernel)
      simp only [Mag.seconds] at h
      have : (2160000 : Rat) ≤ v := by linarith
      exact_mod_cast this
    | base =>
      refine key 2160 ?_ (by decide +kernel) (by decide +kernel)
      simp only [Mag.seconds] at h
      have : (2160 : Rat) ≤ v := by linarith
      exact_mod_cast this
    | minute =>
      refine key 36 ?_ (by decide +kernel) (by decide +kernel)
      simp only [Mag.seconds] at h
      have : (36 : Rat) ≤ v := by linarith
      exact_mod_cast this
    | hour =>
      refine key 1 ?_ (by decide +kernel) (by decide +kernel)
      simp only [Mag.seconds] at h
      have : (0 : Rat) < v := by linarith
      exact_mod_cast this
    | day =>
      refine key 1 ?_ (by decide +kernel) (by decide +kernel)
      simp only [Mag.seconds] at h
      have : (0 : Rat) < v := by linarith
      exact_mod_cast this
  refine ⟨hc, ?_⟩
  rw [repr, reprParts, toUnit, if_neg hm, hc]
  rfl

example : repr .minute 36 = .error .ub ∧ repr .minute 35 = .ok ("35m".toList) ∧ Text.repr .minute 36 = .ok ("36m".toList) := by decide +kernel

end Narrow
end Spine
