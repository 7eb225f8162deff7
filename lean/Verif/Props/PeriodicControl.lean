import Verif.Props.Cyclic
import Verif.Props.Pid
import Verif.Props.Timers
/-!
# C149: what a periodic event drives

A handler that is called periodically (C130) gives a reading to a `PID`, or asks an `IntervalTimer`, of the same period.
-/

namespace Spine

variable {ω δ H F : Type} [DecidableEq ω] [Arith F] {b : Build} {beh : Behaviour ω δ H} {cfg : Config} {objs : List ω} {period : Nat → Int}

open ES

/-- Readings at the calls of a task lead to a computation each. -/
theorem paced_readings {T L : Int} : ∀ (ts : List Int) (vs : List F) (s : Pid F) (d e : Int), Cyclic.Paced T L d ts e → vs.length = ts.length → 0 ≤ s.sampling → s.sampling ≤ T →
    s.lastTime + s.sampling ≤ d → |s.lastTime| ≤ 2 ^ 24 → s.sampling ≤ 2 ^ 24 → 0 ≤ d → (∀ t ∈ ts, t ≤ 2 ^ 24) →
    ∃ s', PID.readings s (ts.zip vs) = .ok (List.replicate ts.length true, s') := by
  intro ts
  induction ts with
  | nil => intro vs s d e _ _ _ _ _ _ _ _ _; exact ⟨s, by simp [PID.readings]⟩
  | cons t ts ih =>
    intro vs s d e hp hl h0 hT hd hs hs' hd0 hts
    cases vs with
    | nil => simp at hl
    | cons v vs =>
      obtain ⟨p1, p2, p3⟩ := hp
      have ht := hts t (by simp)
      have htb : |t| ≤ 2 ^ 24 := by rw [abs_le]; constructor <;> omega
      have hsb : |s.sampling| ≤ 2 ^ 24 := by rw [abs_le]; constructor <;> omega
      have hq := newReading_pid (v := v) (hs.trans (by norm_num)) (htb.trans (by norm_num : (2 : Int) ^ 24 ≤ 2 ^ 61)) (hsb.trans (by norm_num))
      rw [near_eq hs, near_eq hsb, if_pos (by omega)] at hq
      obtain ⟨s', hs''⟩ := ih vs (({ s with input := v } : Pid F).compute t) (t + T) e p3 (by simpa using hl) h0 hT (by simp only [Pid.compute]; omega)
        (by simpa only [Pid.compute] using htb) hs' (by omega) (fun x hx => hts x (by simp [hx]))
      exact ⟨s', by simp only [List.zip_cons_cons, PID.readings, hq, res_bind_ok, hs'', res_pure, List.length_cons, List.replicate_succ]⟩

theorem ES.Cyclic.calls_le {nap : Option Int} (hper : ∀ id, 0 < period id) (hnap : ∀ most, nap = some most → 0 ≤ most) :
    ∀ (ws : List Nat) (st : Cyclic.State), Cyclic.Sorted st.tasks → (∀ c ∈ st.calls, c.2 ≤ st.clock) →
      ∀ c ∈ (Cyclic.run period nap st ws).calls, c.2 ≤ (Cyclic.run period nap st ws).clock
  | [], _, _, hc => hc
  | w :: ws, st, h, hc => by
    have hs := Cyclic.serve_sorted (period := period) (st := { st with clock := st.clock + w }) h
    have h1 := Cyclic.sleep_spec (nap := nap) hs (Cyclic.serve_later h hper) hnap
    refine ES.Cyclic.calls_le hper hnap ws (Cyclic.round period nap st w) (by unfold Cyclic.round; rw [h1.1]; exact hs) ?_
    have h3 : st.clock + w ≤ (Cyclic.round period nap st w).clock := h1.2.2.1
    intro c hcm
    unfold Cyclic.round at hcm
    rw [h1.2.1] at hcm
    simp only [Cyclic.serve, List.mem_append, List.mem_map] at hcm
    rcases hcm with hcm | ⟨x, -, rfl⟩
    · have := hc c hcm; omega
    · exact h3

/-- **C149** (partial). A `PID` that is given a reading at every call of a periodic event computes at every call, and so exactly once per call, if its sampling time is at most the period
of the event and has passed since its construction or last computation when the event is due for the first time. Whatever the readings are and however late the calls. Missing: uptimes of
more than 2^24 ms. -/
theorem C149_pid_partial (hnd : objs.Nodup) (hl : objs.length = cfg.eventsCap) (hs : cfg.eventsCap < 2 ^ 16) (hh : cfg.handlerCap < sizeMod)
    (hhc : 0 < cfg.handlerCap) (hmax : 0 ≤ cfg.maxDelay) {now : Int} (hn : 0 ≤ now) (blank : δ)
    (hbeh : ∀ h tr e, ∃ d, beh h tr e = .schedule e.id (period e.id) d .done) (hper : ∀ id, 0 < period id ∧ period id ≤ 2 ^ 23)
    {jobs : List (Job δ H)} (hj : jobs ≠ []) (hroom : jobs.length < cfg.eventsCap) (hids : (jobs.map (·.id)).Nodup)
    (hjobs : ∀ j ∈ jobs, j.id < cfg.eventsCount ∧ 0 < j.delay ∧ j.delay ≤ 2 ^ 23)
    (nest : Nat) {fuel : Nat} (hfuel : cfg.eventsCap ≤ fuel) (ws : List Nat)
    (hend : (Cyclic.run period (nap cfg) ⟨now, started now jobs [], []⟩ ws).clock ≤ 2 ^ 24) :
    ∃ s : ES ω δ H, (do let s ← ES.create b cfg objs blank now
                        s.run b beh (nest + 1) fuel (start (polls ws) jobs)) = .ok s ∧
      ∀ j ∈ jobs, ∀ p : Pid F, 0 ≤ p.sampling → p.sampling ≤ period j.id → p.lastTime + p.sampling ≤ now + j.delay → |p.lastTime| ≤ 2 ^ 24 →
        ∀ vs : List F, vs.length = (Cyclic.callsOf j.id (callLog s.trace).reverse).length →
          ∃ p', PID.readings p ((Cyclic.callsOf j.id (callLog s.trace).reverse).zip vs) = .ok (List.replicate vs.length true, p') := by
  obtain ⟨s, h1, h2, h3, h4⟩ := C130_paced_partial (b := b) hnd hl hs hh hhc hmax hn blank hbeh hper hj hroom hids hjobs nest hfuel ws hend
  refine ⟨s, h1, fun j hjm p p0 p1 p2 p3 vs hvs => ?_⟩
  obtain ⟨L, hL⟩ : ∃ L : Int, ∀ w ∈ ws, (w : Int) ≤ L := ⟨(ws.sum : Nat), fun w hw => by exact_mod_cast List.le_sum_of_mem hw⟩
  obtain ⟨e, k1, -⟩ := h4 j hjm L hL
  rw [hvs]
  refine paced_readings _ vs p _ e k1 hvs p0 p1 p2 p3 (by have := (hper j.id).2; omega) (by have := (hjobs j hjm).2.1; omega) ?_
  intro t ht
  rw [h3] at ht
  simp only [Cyclic.callsOf, List.mem_map, List.mem_filter] at ht
  obtain ⟨c, ⟨hc, -⟩, rfl⟩ := ht
  refine (ES.Cyclic.calls_le (fun id => (hper id).1) ?_ ws ⟨now, started now jobs [], []⟩ ((started_spec now jobs []).2 List.Pairwise.nil) (by simp) c hc).trans hend
  intro most hm
  unfold nap at hm
  split at hm
  · cases hm; exact hmax
  · cases hm

/-- Non-trivial case: a controller with a sampling time of 10 ms, constructed at time 0, and the calls of the second example of C130, some of which are late. -/
example : (do
    let cfg : PidConfig Rat := { PidConfig.default with interval := 10 }
    let p ← PID.create cfg .debug 0
    let p ← PID.start cfg p
    return (p.sampling, p.lastTime, (← PID.readings p [(10, 1), (24, 2), (37, 3), (47, 3), (59, 4)]).1) : Res (Int × Int × List Bool)) =
      .ok (10, -100, [true, true, true, true, true]) := by decide +kernel

/-- Asking an interval timer of interval `T` at `a + T`, `a + 2T`, and so on, if it began at `a`, or one interval earlier (`x`): without catching up, every other answer is no. -/
theorem every_other {T : Int} (hT : 0 < T) : ∀ (n : Nat) (a : Int) (x : Bool), 0 ≤ a - (if x then T else 0) → a + n * T ≤ 2 ^ 24 → T ≤ 2 ^ 24 → ∃ t,
    (Interval.create (a - (if x then T else 0)) T false).run ((List.range n).map fun k : Nat => a + (k + 1) * T) = .ok ((List.range n).map (fun k => (k % 2 == 1) != x), t) := by
  intro n
  induction n with
  | zero => intro a x _ _ _; exact ⟨Interval.create (a - (if x then T else 0)) T false, by simp [Interval.run]⟩
  | succ n ih =>
    intro a x h0 h1 h2
    have hb : a + T ≤ 2 ^ 24 := by push_cast at h1; nlinarith
    have ht : (List.range (n + 1)).map (fun k : Nat => a + (k + 1) * T) = (a + T) :: (List.range n).map fun k : Nat => (a + T) + (k + 1) * T := by
      rw [List.range_succ_eq_map, List.map_cons, List.map_map]
      simp only [List.cons.injEq]
      refine ⟨by push_cast; ring, List.map_congr_left fun k _ => ?_⟩
      simp only [Function.comp]; push_cast; ring
    have hr : (List.range (n + 1)).map (fun k => (k % 2 == 1) != x) = x :: (List.range n).map fun k => (k % 2 == 1) != !x := by
      rw [List.range_succ_eq_map, List.map_cons, List.map_map]
      simp only [List.cons.injEq]
      refine ⟨by cases x <;> rfl, List.map_congr_left fun k _ => ?_⟩
      simp only [Function.comp]
      have : ((k + 1) % 2 == 1) = !(k % 2 == 1) := by
        rcases Nat.mod_two_eq_zero_or_one k with h | h <;> simp [Nat.add_mod, h]
      rw [Nat.succ_eq_add_one, this]
      cases x <;> cases (k % 2 == 1) <;> rfl
    rw [ht, hr, Interval.run, Interval.poll_small (by simp only [Interval.create]; rw [abs_of_nonneg h0]; split <;> omega) (by simp only [Interval.create]; rw [abs_of_pos hT]; exact h2)
      (by rw [abs_of_nonneg (by split at h0 <;> omega)]; exact hb)]
    cases x
    · obtain ⟨t, q⟩ := ih (a + T) true (by simp only [if_true, Bool.false_eq_true, if_false] at *; omega) (by push_cast at h1 ⊢; linarith) h2
      rw [if_pos rfl, show a + T - T = a - (if false = true then T else 0) by simp] at q
      refine ⟨t, ?_⟩
      rw [if_neg (by simp [Interval.create])]
      simp only [res_bind_ok, res_pure, Bool.not_false]
      rw [q]; rfl
    · obtain ⟨t, q⟩ := ih (a + T) false (by simp only [if_true, Bool.false_eq_true, if_false] at *; omega) (by push_cast at h1 ⊢; linarith) h2
      refine ⟨t, ?_⟩
      rw [if_pos (by simp [Interval.create]; omega)]
      simp only [Interval.create, res_bind_ok, res_pure, Bool.not_true, Bool.false_eq_true, if_false, sub_zero] at q ⊢
      rw [q]; rfl

/-- Asking an `IntervalTimer` in place of the `PID`: if a timer of interval `T` is made when an event of period `T` is scheduled, then at every other call of the handler `expired()` returns false,
for every `T`, and any number of calls, since at each call exactly `T` has passed and `expired()` waits for more. So what the timer guards happens half as often as asked for. -/
theorem C149_timer_counterexample (T n : Nat) (hT : 0 < T) (hend : (n + 1) * T ≤ 2 ^ 23) :
    ∃ s : ES Nat Nat Nat, (do let s ← ES.create b { exampleTasks with maxDelay := 2 ^ 23 } [0, 1, 2] 0 0
                              s.run b (fun _ _ e => .schedule e.id T e.data .done) 1 3 (start (polls (List.replicate (n + 1) 0)) [⟨0, 7, T, 1⟩])) = .ok s ∧
      Cyclic.callsOf 0 (callLog s.trace).reverse = (List.range n).map (fun k : Nat => ((k + 1) * T : Int)) ∧
      ∃ t, (Interval.create 0 T false).run (Cyclic.callsOf 0 (callLog s.trace).reverse) = .ok ((List.range n).map (fun k => k % 2 == 1), t) := by
  have hTb : T ≤ (n + 1) * T := Nat.le_mul_of_pos_left _ (by omega)
  obtain ⟨s, h1, h2⟩ := C130_drift (b := b) T 0 n hT (by omega) (by omega) (by simp only [add_zero]; omega)
  have h2 : Cyclic.callsOf 0 (callLog s.trace).reverse = (List.range n).map (fun k : Nat => ((k + 1) * T : Int)) := by simpa using h2
  refine ⟨s, h1, h2, ?_⟩
  rw [h2]
  have hb : ((n : Int) + 1) * T ≤ 2 ^ 23 := by exact_mod_cast hend
  have hT' : (0 : Int) < T := by exact_mod_cast hT
  obtain ⟨t, q⟩ := every_other (T := T) hT' n 0 false (by simp) (by linarith) (by omega)
  exact ⟨t, by simpa using q⟩

end Spine
