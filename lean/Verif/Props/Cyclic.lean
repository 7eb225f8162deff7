import Verif.Proofs.Cyclic
/-!
# Periodic tasks: C130
-/

set_option linter.unusedSectionVars false

namespace Spine

variable {ω δ H : Type} [DecidableEq ω] {b : Build} {beh : Behaviour ω δ H} {cfg : Config} {objs : List ω} {period : Nat → Int}

open ES

/-- C130 (partial). A program creates a system, attaches one handler per task, schedules their events, and then spends `ws` ms elsewhere between calls
of `loop()`, again and again. Every handler schedules its event again, a period ahead. Then nothing fails; every task is called with its own period:
never before it is due, late by no more than the longest time `L` spent elsewhere, and due again a period after each call; and no call is omitted: when the program
ends no task is overdue. Missing: uptimes of more than 2^24 ms (`C130_late_partial`), as many tasks as the capacity (`C130_capacity_counterexample`), and a bound on the sum of the
delays (`C130_drift_counterexample`). -/
theorem C130_paced_partial (hnd : objs.Nodup) (hl : objs.length = cfg.eventsCap) (hs : cfg.eventsCap < 2 ^ 16) (hh : cfg.handlerCap < sizeMod)
    (hhc : 0 < cfg.handlerCap) (hmax : 0 ≤ cfg.maxDelay) {now : Int} (hn : 0 ≤ now) (blank : δ)
    (hbeh : ∀ h tr e, ∃ d, beh h tr e = .schedule e.id (period e.id) d .done) (hper : ∀ id, 0 < period id ∧ period id ≤ 2 ^ 23)
    {jobs : List (Job δ H)} (hj : jobs ≠ []) (hroom : jobs.length < cfg.eventsCap) (hids : (jobs.map (·.id)).Nodup)
    (hjobs : ∀ j ∈ jobs, j.id < cfg.eventsCount ∧ 0 < j.delay ∧ j.delay ≤ 2 ^ 23)
    (nest : Nat) {fuel : Nat} (hfuel : cfg.eventsCap ≤ fuel) (ws : List Nat)
    (hend : (Cyclic.run period (nap cfg) ⟨now, started now jobs [], []⟩ ws).clock ≤ 2 ^ 24) :
    ∃ s : ES ω δ H, (do let s ← ES.create b cfg objs blank now
                        s.run b beh (nest + 1) fuel (start (polls ws) jobs)) = .ok s ∧
      s.clock = (Cyclic.run period (nap cfg) ⟨now, started now jobs [], []⟩ ws).clock ∧
      (callLog s.trace).reverse = (Cyclic.run period (nap cfg) ⟨now, started now jobs [], []⟩ ws).calls ∧
      ∀ j ∈ jobs, ∀ L : Int, (∀ w ∈ ws, (w : Int) ≤ L) →
        ∃ e, Cyclic.Paced (period j.id) L (now + j.delay) (Cyclic.callsOf j.id (callLog s.trace).reverse) e ∧ s.clock ≤ e := by
  have hper' : ∀ id, 0 < period id := fun id => (hper id).1
  have hnap : ∀ most, nap cfg = some most → 0 ≤ most := by
    intro most hm
    unfold nap at hm
    split at hm
    · cases hm; exact hmax
    · cases hm
  obtain ⟨hp, hsorted⟩ := started_spec now jobs []
  have hsorted := hsorted List.Pairwise.nil
  have hmono := ES.Cyclic.clock_le hper' hnap ws ⟨now, started now jobs [], []⟩ hsorted
  simp only at hmono
  obtain ⟨s0, e1, e2, e3, e4⟩ := Ticking.create (b := b) (H := H) (blank := blank) hn hnd hl hs hh (by omega)
  obtain ⟨s1, q1, f1, f2, f3, f4⟩ := Ticking.start (b := b) hhc jobs s0 [] e2 (by simpa using hroom) hids hjobs (fun j _ => by rw [e4]; rfl)
    (by rw [e3]; omega)
  rw [e3, e4] at f4
  have f4' : s1.cyclic q1 = ⟨now, started now jobs [], []⟩ := f4
  have hne : q1 ≠ [] := by
    rintro rfl
    simp only [List.length_nil, Nat.zero_add] at f3
    exact hj (List.length_eq_zero_iff.mp f3.symm)
  obtain ⟨s2, q2, g1, g2, g3⟩ := Ticking.run (b := b) hbeh hper hhc hmax nest fuel hfuel ws s1 q1 f2 hne (by rw [f4']; exact hend)
  rw [f4'] at g3
  have hclock : s2.clock = (Cyclic.run period (nap cfg) ⟨now, started now jobs [], []⟩ ws).clock := congrArg Cyclic.State.clock g3
  have hcalls : (callLog s2.trace).reverse = (Cyclic.run period (nap cfg) ⟨now, started now jobs [], []⟩ ws).calls := congrArg Cyclic.State.calls g3
  refine ⟨s2, ?_, hclock, hcalls, fun j hjm L hL => ?_⟩
  · rw [e1, res_bind_ok, ES.run, f1]; exact g1
  · obtain ⟨cs, e, k1, k2, k3⟩ := Cyclic.run_paced (id := j.id) (L := L) (nap := nap cfg) hper' hnap ws ⟨now, started now jobs [], []⟩ (now + j.delay)
      hsorted (started_single now hids hjm) (by have := (hjobs j hjm).2.1; simp only; omega) hL
    rw [hcalls, hclock, k1]
    exact ⟨e, by simpa [Cyclic.callsOf] using k2, k3⟩

/-- C130 (partial). If the program spends no time elsewhere and `loop()` may sleep, then every task is called exactly on time: the k-th call comes k periods after the first
one, which comes when the event was scheduled for. -/
theorem C130_punctual_partial (hnd : objs.Nodup) (hl : objs.length = cfg.eventsCap) (hs : cfg.eventsCap < 2 ^ 16) (hh : cfg.handlerCap < sizeMod)
    (hhc : 0 < cfg.handlerCap) (hmax : 0 ≤ cfg.maxDelay) {now : Int} (hn : 0 ≤ now) (blank : δ)
    (hbeh : ∀ h tr e, ∃ d, beh h tr e = .schedule e.id (period e.id) d .done) (hper : ∀ id, 0 < period id ∧ period id ≤ 2 ^ 23)
    {jobs : List (Job δ H)} (hj : jobs ≠ []) (hroom : jobs.length < cfg.eventsCap) (hids : (jobs.map (·.id)).Nodup)
    (hjobs : ∀ j ∈ jobs, j.id < cfg.eventsCount ∧ 0 < j.delay ∧ j.delay ≤ 2 ^ 23)
    (nest : Nat) {fuel : Nat} (hfuel : cfg.eventsCap ≤ fuel) (n : Nat)
    (hend : (Cyclic.run period (nap cfg) ⟨now, started now jobs [], []⟩ (List.replicate n 0)).clock ≤ 2 ^ 24) :
    ∃ s : ES ω δ H, (do let s ← ES.create b cfg objs blank now
                        s.run b beh (nest + 1) fuel (start (polls (List.replicate n 0)) jobs)) = .ok s ∧
      ∀ j ∈ jobs, ∃ m : Nat, Cyclic.callsOf j.id (callLog s.trace).reverse = (List.range m).map (fun k : Nat => now + j.delay + k * period j.id) ∧
        s.clock ≤ now + j.delay + m * period j.id := by
  obtain ⟨s, h1, _, _, h2⟩ := C130_paced_partial (b := b) hnd hl hs hh hhc hmax hn blank hbeh hper hj hroom hids hjobs nest hfuel (List.replicate n 0) hend
  refine ⟨s, h1, fun j hjm => ?_⟩
  obtain ⟨e, k1, k2⟩ := h2 j hjm 0 (fun w hw => by simp [List.eq_of_mem_replicate hw])
  obtain ⟨k3, k4⟩ := k1.exact
  exact ⟨_, k3, by rw [← k4]; exact k2⟩

/-- Two tasks of periods 10 and 25 ms, for which `loop()` sleeps up to 1000 ms. -/
def exampleTasks : Config := { eventsCount := 2, eventsCap := 3, handlerCap := 1, delayBetweenTicks := true, minDelay := 100, maxDelay := 1000 }

/-- Non-trivial case: without time spent elsewhere. -/
example : ∃ s : ES Nat Nat Nat, (do let s ← ES.create b exampleTasks [0, 1, 2] 0 0
                                    s.run b (fun _ _ e => .schedule e.id (if e.id = 0 then 10 else 25) e.data .done) 1 3
                                      (start (polls [0, 0, 0, 0, 0, 0, 0, 0]) [⟨0, 7, 10, 1⟩, ⟨1, 8, 25, 2⟩])) = .ok s ∧
    (s.clock, (callLog s.trace).reverse) = (70, [(0, 10), (0, 20), (1, 25), (0, 30), (0, 40), (1, 50), (0, 50), (0, 60)]) := by
  have hrun : (fun st : Cyclic.State => (st.clock, st.calls)) (Cyclic.run (fun id => if id = 0 then 10 else 25) (nap exampleTasks) ⟨0, started 0 [(⟨0, 7, 10, 1⟩ : Job Nat Nat), ⟨1, 8, 25, 2⟩] [], []⟩
      [0, 0, 0, 0, 0, 0, 0, 0]) = (70, [(0, 10), (0, 20), (1, 25), (0, 30), (0, 40), (1, 50), (0, 50), (0, 60)]) := by decide +kernel
  simp only [Prod.mk.injEq] at hrun ⊢
  obtain ⟨s, h1, h2, h3, -⟩ := C130_paced_partial (b := b) (cfg := exampleTasks) (objs := [0, 1, 2]) (period := fun id => if id = 0 then 10 else 25)
    (beh := fun _ _ e => .schedule e.id (if e.id = 0 then 10 else 25) e.data .done) (by decide) rfl (by decide) (lt_sizeMod (by decide)) (by decide) (by decide) (le_refl 0) (0 : Nat)
    (fun _ _ e => ⟨e.data, rfl⟩) (fun id => by split <;> omega) (jobs := [⟨0, 7, 10, 1⟩, ⟨1, 8, 25, 2⟩]) (by simp) (by decide) (by decide)
    (by decide) 0 (fuel := 3) (by decide) [0, 0, 0, 0, 0, 0, 0, 0] (by rw [hrun.1]; decide)
  exact ⟨s, h1, h2.trans hrun.1, h3.trans hrun.2⟩

/-- Non-trivial case: with time spent elsewhere. -/
example : ∃ s : ES Nat Nat Nat, (do let s ← ES.create b exampleTasks [0, 1, 2] 0 0
                                    s.run b (fun _ _ e => .schedule e.id (if e.id = 0 then 10 else 25) e.data .done) 1 3
                                      (start (polls [3, 0, 4, 12, 0, 2]) [⟨0, 7, 10, 1⟩, ⟨1, 8, 25, 2⟩])) = .ok s ∧
    (s.clock, (callLog s.trace).reverse) = (62, [(0, 10), (0, 24), (1, 37), (0, 37), (0, 47), (0, 59)]) := by
  have hrun : (fun st : Cyclic.State => (st.clock, st.calls)) (Cyclic.run (fun id => if id = 0 then 10 else 25) (nap exampleTasks) ⟨0, started 0 [(⟨0, 7, 10, 1⟩ : Job Nat Nat), ⟨1, 8, 25, 2⟩] [], []⟩
      [3, 0, 4, 12, 0, 2]) = (62, [(0, 10), (0, 24), (1, 37), (0, 37), (0, 47), (0, 59)]) := by decide +kernel
  simp only [Prod.mk.injEq] at hrun ⊢
  obtain ⟨s, h1, h2, h3, -⟩ := C130_paced_partial (b := b) (cfg := exampleTasks) (objs := [0, 1, 2]) (period := fun id => if id = 0 then 10 else 25)
    (beh := fun _ _ e => .schedule e.id (if e.id = 0 then 10 else 25) e.data .done) (by decide) rfl (by decide) (lt_sizeMod (by decide)) (by decide) (by decide) (le_refl 0) (0 : Nat)
    (fun _ _ e => ⟨e.data, rfl⟩) (fun id => by split <;> omega) (jobs := [⟨0, 7, 10, 1⟩, ⟨1, 8, 25, 2⟩]) (by simp) (by decide) (by decide)
    (by decide) 0 (fuel := 3) (by decide) [3, 0, 4, 12, 0, 2] (by rw [hrun.1]; decide)
  exact ⟨s, h1, h2.trans hrun.1, h3.trans hrun.2⟩

/-- A single task of period `T`, if the program spends `L` ms elsewhere between two calls of `loop()`. -/
theorem C130_drift (T L n : Nat) (hT0 : 0 < T) (hLT : L < T) (hT : T ≤ 2 ^ 23) (hend : (n + 1) * (T + L) ≤ 2 ^ 24) :
    ∃ s : ES Nat Nat Nat, (do let s ← ES.create b { exampleTasks with maxDelay := 2 ^ 23 } [0, 1, 2] 0 0
                              s.run b (fun _ _ e => .schedule e.id T e.data .done) 1 3 (start (polls (List.replicate (n + 1) L)) [⟨0, 7, T, 1⟩])) = .ok s ∧
      Cyclic.callsOf 0 (callLog s.trace).reverse = (List.range n).map (fun k : Nat => ((k + 1) * (T + L) : Int)) := by
  have hspec : ∀ (m : Nat) (a : Nat) (cs : List (Nat × Int)),
      Cyclic.run (fun _ => (T : Int)) (some (2 ^ 23)) ⟨a, [⟨0, a⟩], cs⟩ (List.replicate m L) =
        ⟨a + m * (T + L), [⟨0, a + m * (T + L)⟩], cs ++ (List.range m).map (fun k : Nat => (0, (a + L + k * (T + L) : Int)))⟩ := by
    intro m
    induction m with
    | zero => intro a cs; simp [Cyclic.run]
    | succ m ih =>
      intro a cs
      have hr : Cyclic.round (fun _ => (T : Int)) (some (2 ^ 23)) ⟨a, [⟨0, a⟩], cs⟩ L = ⟨(a + (T + L) : Nat), [⟨0, (a + (T + L) : Nat)⟩], cs ++ [(0, ((a + L : Nat) : Int))]⟩ := by
        have h1 : decide ((a : Int) ≤ (a : Int) + (L : Int)) = true := by simp
        simp only [Cyclic.round, Cyclic.serve, Cyclic.sleep, List.takeWhile_cons, List.dropWhile_cons, h1, if_true, List.takeWhile_nil, List.dropWhile_nil,
          List.foldl_cons, List.foldl_nil, Cyclic.insert, List.nil_append, List.map_cons, List.map_nil, Cyclic.State.mk.injEq, List.cons.injEq, Cyclic.Task.mk.injEq,
          and_true, true_and]
        refine ⟨by push_cast; omega, by push_cast; omega, by push_cast; rfl⟩
      rw [List.replicate_succ]
      show Cyclic.run _ _ (Cyclic.round (fun _ => (T : Int)) (some (2 ^ 23)) ⟨a, [⟨0, a⟩], cs⟩ L) (List.replicate m L) = _
      rw [hr, ih, List.range_succ_eq_map, List.map_cons, List.map_map]
      simp only [Cyclic.State.mk.injEq, List.cons.injEq, Cyclic.Task.mk.injEq, and_true, true_and, List.append_assoc, List.cons_append, List.nil_append]
      refine ⟨by push_cast; ring, by push_cast; ring, ?_⟩
      congr 2
      · push_cast; ring_nf
      · apply List.map_congr_left
        intro k _
        simp only [Function.comp, Nat.succ_eq_add_one, Prod.mk.injEq, true_and]
        push_cast; ring
  have hfirst : Cyclic.round (fun _ => (T : Int)) (some (2 ^ 23)) ⟨0, [⟨0, T⟩], []⟩ L = ⟨T, [⟨0, T⟩], []⟩ := by
    have h1 : decide ((T : Int) ≤ 0 + (L : Int)) = false := by simp; omega
    simp only [Cyclic.round, Cyclic.serve, Cyclic.sleep, List.takeWhile_cons, List.dropWhile_cons, h1, Bool.false_eq_true, if_false, List.foldl_nil, List.map_nil, List.append_nil,
      Cyclic.State.mk.injEq, and_true]
    omega
  have hrun : Cyclic.run (fun _ => (T : Int)) (nap { exampleTasks with maxDelay := 2 ^ 23 }) ⟨0, started 0 [(⟨0, 7, T, 1⟩ : Job Nat Nat)] [], []⟩ (List.replicate (n + 1) L) =
      ⟨T + n * (T + L), [⟨0, T + n * (T + L)⟩], (List.range n).map (fun k : Nat => (0, (T + L + k * (T + L) : Int)))⟩ := by
    rw [List.replicate_succ]
    have hst : started 0 [(⟨0, 7, T, 1⟩ : Job Nat Nat)] [] = [⟨0, (T : Int)⟩] := by simp [started, Cyclic.insert]
    rw [hst]
    show Cyclic.run _ (some (2 ^ 23)) (Cyclic.round (fun _ => (T : Int)) (some (2 ^ 23)) ⟨0, [⟨0, T⟩], []⟩ L) (List.replicate n L) = _
    rw [hfirst, hspec]
    simp
  obtain ⟨s, h1, h2, h3, _⟩ := C130_paced_partial (b := b) (cfg := { exampleTasks with maxDelay := 2 ^ 23 }) (objs := [0, 1, 2]) (period := fun _ => (T : Int))
    (beh := fun _ _ e => .schedule e.id T e.data .done) (by decide) rfl (by decide) (lt_sizeMod (by decide)) (by decide) (by decide) (le_refl 0) (0 : Nat)
    (fun _ _ e => ⟨e.data, rfl⟩) (fun _ => ⟨by omega, by omega⟩) (jobs := [⟨0, 7, T, 1⟩]) (by simp) (by simp [exampleTasks]) (by simp)
    (by simp only [List.mem_singleton, forall_eq]; exact ⟨by decide, by omega, by omega⟩) 0 (fuel := 3) (by decide) (List.replicate (n + 1) L)
    (by
      rw [hrun]
      have : (T : Int) + n * (T + L) ≤ ((n + 1) * (T + L) : Nat) := by push_cast; nlinarith
      simp only
      omega)
  refine ⟨s, h1, ?_⟩
  rw [h3, hrun]
  simp only [Cyclic.callsOf]
  rw [List.filter_eq_self.mpr (by simp), List.map_map]
  apply List.map_congr_left
  intro k _
  simp only [Function.comp]
  ring

/-- C130 is false of the time since the start: if the program spends `L` ms elsewhere between two calls of `loop()`, each call of a single task is late by `L` more than the one before, for
every period `T` and every `0 < L < T`; the k-th call comes after `k * (T + L)` instead of `k * T`. -/
theorem C130_drift_counterexample (T L n : Nat) (hL : 0 < L) (hLT : L < T) (hT : T ≤ 2 ^ 23) (hend : (n + 1) * (T + L) ≤ 2 ^ 24) :
    ∃ s : ES Nat Nat Nat, (do let s ← ES.create b { exampleTasks with maxDelay := 2 ^ 23 } [0, 1, 2] 0 0
                              s.run b (fun _ _ e => .schedule e.id T e.data .done) 1 3 (start (polls (List.replicate (n + 1) L)) [⟨0, 7, T, 1⟩])) = .ok s ∧
      Cyclic.callsOf 0 (callLog s.trace).reverse = (List.range n).map (fun k : Nat => ((k + 1) * (T + L) : Int)) :=
  C130_drift T L n (hL.trans hLT) hLT hT hend

/-- C130 fails with as many tasks as the capacity: the event being delivered still occupies its object when its handler schedules the next one. -/
theorem C130_capacity_counterexample :
    (do let s : ES Nat Nat Nat ← ES.create b { exampleTasks with eventsCap := 2, delayBetweenTicks := false } [0, 1] 0 0
        s.run b (fun _ _ e => .schedule e.id 10 e.data .done) 1 3 (start (polls [10]) [⟨0, 7, 10, 1⟩, ⟨1, 8, 25, 2⟩])).map (fun s : ES Nat Nat Nat => s.clock)
      = .error (match b with | .debug => .assertFailed | .release => .ub) := by
  cases b <;> decide +kernel

end Spine
