import Verif.Props.CyclicLate
import Verif.Props.PeriodicControl
/-!
# Controllers driven by periodic events at any uptime: C149
-/

set_option linter.unusedSectionVars false

namespace Spine

variable {ω δ H F : Type} [DecidableEq ω] [Arith F] {b : Build} {beh : Behaviour ω δ H} {cfg : Config} {objs : List ω} {period : Nat → Int}

open ES

/-- Readings at the calls of a task, which may be early by `σ`, lead to a computation each if the sampling time is shorter than the period by `2σ`. -/
theorem pacedSeen_readings {T L σ N : Int} (hσ : σ = N / 2 ^ 24) (hN : N ≤ 2 ^ 40) : ∀ (ts : List Int) (vs : List F) (s : Pid F) (d e : Int), Cyclic.PacedSeen T L σ d ts e →
    vs.length = ts.length → 0 ≤ s.sampling → s.sampling ≤ 2 ^ 24 → s.sampling + 2 * σ ≤ T → s.lastTime + s.sampling + 2 * σ ≤ d → |s.lastTime| ≤ N → 0 ≤ d → (∀ t ∈ ts, t ≤ N) →
    ∃ s', PID.readings s (ts.zip vs) = .ok (List.replicate ts.length true, s') := by
  intro ts
  induction ts with
  | nil => intro vs s d e _ _ _ _ _ _ _ _ _; exact ⟨s, by simp [PID.readings]⟩
  | cons t ts ih =>
    intro vs s d e hp hl h0 h1 hT hd hs hd0 hts
    cases vs with
    | nil => simp at hl
    | cons v vs =>
      obtain ⟨p1, p2, p3⟩ := hp
      have ht := hts t (by simp)
      have hN0 : 0 ≤ N := (abs_nonneg _).trans hs
      have htb : |t| ≤ N := by rw [abs_le]; constructor <;> omega
      have hsb : |s.sampling| ≤ 2 ^ 24 := by rw [abs_le]; constructor <;> omega
      have hq := newReading_pid (v := v) ((hs.trans hN).trans (by norm_num)) ((htb.trans hN).trans (by norm_num : (2 : Int) ^ 40 ≤ 2 ^ 61)) (hsb.trans (by norm_num))
      have hb := near_bound s.lastTime
      have hm : |s.lastTime| / 2 ^ 24 ≤ σ := by rw [hσ]; exact Int.ediv_le_ediv (by norm_num) hs
      have hb' := (abs_le.mp (hb.trans hm)).2
      rw [near_eq hsb, if_pos (by omega)] at hq
      obtain ⟨s', hs''⟩ := ih vs (({ s with input := v } : Pid F).compute t) (t + T) e p3 (by simpa using hl) h0 h1 hT (by simp only [Pid.compute]; omega)
        (by simpa only [Pid.compute] using htb) (by omega) (fun x hx => hts x (by simp [hx]))
      exact ⟨s', by simp only [List.zip_cons_cons, PID.readings, hq, res_bind_ok, hs'', res_pure, List.length_cons, List.replicate_succ]⟩

theorem ES.Cyclic.callsSeen_le {see : Int → Int} {nap : Option Int} :
    ∀ (ws : List Nat) (st : Cyclic.State), (∀ c ∈ st.calls, c.2 ≤ st.clock) →
      ∀ c ∈ (Cyclic.runSeen see period nap st ws).calls, c.2 ≤ (Cyclic.runSeen see period nap st ws).clock
  | [], _, hc => hc
  | w :: ws, st, hc => by
    refine ES.Cyclic.callsSeen_le ws (Cyclic.roundSeen see period nap st w) ?_
    have h1 : ∀ x : Cyclic.State, (Cyclic.sleepSeen see nap x).calls = x.calls ∧ x.clock ≤ (Cyclic.sleepSeen see nap x).clock := by
      intro x
      unfold Cyclic.sleepSeen
      split
      · exact ⟨rfl, by simp only; omega⟩
      · exact ⟨rfl, le_refl _⟩
    obtain ⟨k1, k2⟩ := h1 (Cyclic.serveSeen see period { st with clock := st.clock + w })
    have h3 : st.clock + w ≤ (Cyclic.roundSeen see period nap st w).clock := k2
    intro c hcm
    unfold Cyclic.roundSeen at hcm
    rw [k1] at hcm
    simp only [Cyclic.serveSeen, List.mem_append, List.mem_map] at hcm
    rcases hcm with hcm | ⟨x, -, rfl⟩
    · have := hc c hcm; omega
    · exact h3

/-- **C149** (partial). Like `C149_pid_partial`, for uptimes up to 2^40 ms, 34 years: with `N` the clock at the end, a `PID` that is given a reading at every call of a periodic event computes at
every call if its sampling time is shorter than the period of the event by at least `2 * (N / 2^24)`. Missing: longer sampling times (`C149_late_counterexample`). -/
theorem C149_late_partial (hnd : objs.Nodup) (hl : objs.length = cfg.eventsCap) (hs : cfg.eventsCap < 2 ^ 16) (hh : cfg.handlerCap < sizeMod)
    (hhc : 0 < cfg.handlerCap) (hmax : 0 ≤ cfg.maxDelay) {now : Int} (hn : 0 ≤ now) (blank : δ)
    (hbeh : ∀ h tr e, ∃ d, beh h tr e = .schedule e.id (period e.id) d .done) {N : Int} (hN : N ≤ 2 ^ 40)
    (hper : ∀ id, N / 2 ^ 24 < period id ∧ period id ≤ 2 ^ 23)
    {jobs : List (Job δ H)} (hj : jobs ≠ []) (hroom : jobs.length < cfg.eventsCap) (hids : (jobs.map (·.id)).Nodup)
    (hjobs : ∀ j ∈ jobs, j.id < cfg.eventsCount ∧ 0 < j.delay ∧ j.delay ≤ 2 ^ 23)
    (nest : Nat) {fuel : Nat} (hfuel : cfg.eventsCap ≤ fuel) (ws : List Nat)
    (hend : (Cyclic.runSeen near period (nap cfg) ⟨now, started now jobs [], []⟩ ws).clock ≤ N) :
    ∃ s : ES ω δ H, (do let s ← ES.create b cfg objs blank now
                        s.run b beh (nest + 1) fuel (start (polls ws) jobs)) = .ok s ∧
      ∀ j ∈ jobs, ∀ p : Pid F, 0 ≤ p.sampling → p.sampling + 2 * (N / 2 ^ 24) ≤ period j.id → p.lastTime + p.sampling + 2 * (N / 2 ^ 24) ≤ now + j.delay → |p.lastTime| ≤ N →
        ∀ vs : List F, vs.length = (Cyclic.callsOf j.id (callLog s.trace).reverse).length →
          ∃ p', PID.readings p ((Cyclic.callsOf j.id (callLog s.trace).reverse).zip vs) = .ok (List.replicate vs.length true, p') := by
  obtain ⟨s, h1, h2, h3, h4⟩ := C130_late_partial (b := b) hnd hl hs hh hhc hmax hn blank hbeh hN hper hj hroom hids hjobs nest hfuel ws hend
  refine ⟨s, h1, fun j hjm p p0 p1 p2 p3 vs hvs => ?_⟩
  obtain ⟨L, hL⟩ : ∃ L : Int, ∀ w ∈ ws, (w : Int) ≤ L := ⟨(ws.sum : Nat), fun w hw => by exact_mod_cast List.le_sum_of_mem hw⟩
  obtain ⟨e, k1, -⟩ := h4 j hjm L hL
  have hmono := Cyclic.clockSeen_le (see := near) (period := period) (nap := nap cfg) ws ⟨now, started now jobs [], []⟩
  simp only at hmono
  rw [hvs]
  refine pacedSeen_readings rfl hN _ vs p _ e k1 hvs p0 (by have := (hper j.id).2; omega) p1 p2 p3 (by have := (hjobs j hjm).2.1; omega) ?_
  intro t ht
  rw [h3] at ht
  simp only [Cyclic.callsOf, List.mem_map, List.mem_filter] at ht
  obtain ⟨c, ⟨hc, -⟩, rfl⟩ := ht
  exact (ES.Cyclic.callsSeen_le ws ⟨now, started now jobs [], []⟩ (by simp) c hc).trans hend

/-- A controller with a sampling time of 1000 ms that computed when the program started, after 50 days. -/
def exampleLatePid : Pid Rat := { kp := 2, ki := 1, kd := 3, reverse := false, input := 0, output := 0, setpoint := 90, lastTime := 2 ^ 32, cumulative := 0, lastReading := 0, sampling := 1000, lo := 0, hi := 255, onMeasurement := true }

/-- What becomes of the program of `C130_late_partial`'s example: the calls of task 0 and of task 1, for all builds. -/
theorem exampleLate_run : ∃ s : ES Nat Nat Nat, (do let s ← ES.create b exampleLateTasks [0, 1, 2] 0 (2 ^ 32)
                                                    s.run b (fun _ _ e => .schedule e.id (if e.id = 0 then 1000 else 2500) e.data .done) 1 3
                                                      (start (polls [3, 0, 4, 300, 0, 20]) [⟨0, 7, 1000, 1⟩, ⟨1, 8, 2500, 2⟩])) = .ok s ∧
    (callLog s.trace).reverse = [(0, 2 ^ 32 + 1003), (0, 2 ^ 32 + 1986), (1, 2 ^ 32 + 2738), (0, 2 ^ 32 + 3164)] ∧
    ∀ p : Pid F, 0 ≤ p.sampling → p.sampling + 512 ≤ 1000 → p.lastTime + p.sampling + 512 ≤ 2 ^ 32 + 1000 → |p.lastTime| ≤ 2 ^ 32 + 4344 →
      ∀ v1 v2 v3 : F, ∃ p', PID.readings p [(2 ^ 32 + 1003, v1), (2 ^ 32 + 1986, v2), (2 ^ 32 + 3164, v3)] = .ok ([true, true, true], p') := by
  have hrun : (fun st : Cyclic.State => (st.clock, st.calls)) (Cyclic.runSeen near (fun id => if id = 0 then 1000 else 2500) (nap exampleLateTasks)
      ⟨2 ^ 32, started (2 ^ 32) [(⟨0, 7, 1000, 1⟩ : Job Nat Nat), ⟨1, 8, 2500, 2⟩] [], []⟩ [3, 0, 4, 300, 0, 20]) =
      (2 ^ 32 + 4344, [(0, 2 ^ 32 + 1003), (0, 2 ^ 32 + 1986), (1, 2 ^ 32 + 2738), (0, 2 ^ 32 + 3164)]) := by decide +kernel
  simp only [Prod.mk.injEq] at hrun
  obtain ⟨s, h1, _, h3, _⟩ := C130_late_partial (b := b) (cfg := exampleLateTasks) (objs := [0, 1, 2]) (period := fun id => if id = 0 then 1000 else 2500)
    (beh := fun _ _ e => .schedule e.id (if e.id = 0 then 1000 else 2500) e.data .done) (by decide) rfl (by decide) (lt_sizeMod (by decide)) (by decide) (by decide)
    (now := 2 ^ 32) (by decide) (0 : Nat) (fun _ _ e => ⟨e.data, rfl⟩) (N := 2 ^ 32 + 4344) (by decide) (fun id => by split <;> omega)
    (jobs := [⟨0, 7, 1000, 1⟩, ⟨1, 8, 2500, 2⟩]) (by simp) (by decide) (by decide) (by decide) 0 (fuel := 3) (by decide) [3, 0, 4, 300, 0, 20] (by rw [hrun.1])
  obtain ⟨s', h1', h4⟩ := C149_late_partial (F := F) (b := b) (cfg := exampleLateTasks) (objs := [0, 1, 2]) (period := fun id => if id = 0 then 1000 else 2500)
    (beh := fun _ _ e => .schedule e.id (if e.id = 0 then 1000 else 2500) e.data .done) (by decide) rfl (by decide) (lt_sizeMod (by decide)) (by decide) (by decide)
    (now := 2 ^ 32) (by decide) (0 : Nat) (fun _ _ e => ⟨e.data, rfl⟩) (N := 2 ^ 32 + 4344) (by decide) (fun id => by split <;> omega)
    (jobs := [⟨0, 7, 1000, 1⟩, ⟨1, 8, 2500, 2⟩]) (by simp) (by decide) (by decide) (by decide) 0 (fuel := 3) (by decide) [3, 0, 4, 300, 0, 20] (by rw [hrun.1])
  rw [h1] at h1'
  cases h1'
  have hc := h3.trans hrun.2
  refine ⟨s, h1, hc, fun p p0 p1 p2 p3 v1 v2 v3 => ?_⟩
  have hcalls : Cyclic.callsOf 0 (callLog s.trace).reverse = [2 ^ 32 + 1003, 2 ^ 32 + 1986, 2 ^ 32 + 3164] := by rw [hc]; decide
  have h5 := h4 ⟨0, 7, 1000, 1⟩ (by simp) p p0 (by norm_num; omega) (by norm_num; omega) p3 [v1, v2, v3] (by rw [hcalls]; rfl)
  rw [hcalls] at h5
  exact h5

/-- Non-trivial case of `C149_late_partial`: a controller with a sampling time of 480 ms that last computed at the start. -/
example (v1 v2 v3 : Rat) : ∃ p', PID.readings { exampleLatePid with sampling := 480 } [(2 ^ 32 + 1003, v1), (2 ^ 32 + 1986, v2), (2 ^ 32 + 3164, v3)] = .ok ([true, true, true], p') := by
  obtain ⟨_, _, _, h⟩ := exampleLate_run (b := .debug) (F := Rat)
  exact h _ (by decide) (by decide) (by decide) (by decide) v1 v2 v3

/-- Fifty days after the start a `PID` with the sampling time of the event that drives it does not compute at every call: the event is called 983 ms after its last call, which the controller takes for
962 ms. -/
theorem C149_late_counterexample : ∃ s : ES Nat Nat Nat, (do let s ← ES.create b exampleLateTasks [0, 1, 2] 0 (2 ^ 32)
                                                             s.run b (fun _ _ e => .schedule e.id (if e.id = 0 then 1000 else 2500) e.data .done) 1 3
                                                               (start (polls [3, 0, 4, 300, 0, 20]) [⟨0, 7, 1000, 1⟩, ⟨1, 8, 2500, 2⟩])) = .ok s ∧
    ∃ vs : List Rat, ∃ p', PID.readings exampleLatePid ((Cyclic.callsOf 0 (callLog s.trace).reverse).zip vs) = .ok ([true, false, true], p') := by
  obtain ⟨s, h1, h2, -⟩ := exampleLate_run (b := b) (F := Rat)
  refine ⟨s, h1, [1, 2, 3], ?_⟩
  rw [h2]
  have h3 : (PID.readings exampleLatePid ((Cyclic.callsOf 0 [(0, 2 ^ 32 + 1003), (0, 2 ^ 32 + 1986), (1, 2 ^ 32 + 2738), (0, 2 ^ 32 + 3164)]).zip [1, 2, 3])).map (·.1) = .ok [true, false, true] := by
    decide +kernel
  cases h4 : PID.readings exampleLatePid ((Cyclic.callsOf 0 [(0, 2 ^ 32 + 1003), (0, 2 ^ 32 + 1986), (1, 2 ^ 32 + 2738), (0, 2 ^ 32 + 3164)]).zip [1, 2, 3]) with
  | error e => rw [h4] at h3; cases h3
  | ok r =>
    rw [h4] at h3
    obtain ⟨fs, p'⟩ := r
    cases h3
    exact ⟨p', rfl⟩

end Spine
