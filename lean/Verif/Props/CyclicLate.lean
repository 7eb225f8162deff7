import Verif.Proofs.CyclicLate
/-!
# Periodic tasks at any uptime: C130
-/

set_option linter.unusedSectionVars false

namespace Spine

variable {ω δ H : Type} [DecidableEq ω] {b : Build} {beh : Behaviour ω δ H} {cfg : Config} {objs : List ω} {period : Nat → Int}

open ES

/-- C130 (partial). Like `C130_paced_partial`, for uptimes up to 2^40 ms, 34 years. Let `N` be the clock at the end, and let no period be shorter than the precision of a float there: more than
`N / 2^24` ms. Then nothing fails and every task is called with its own period up to that precision: no call is early by more than `N / 2^24`, none is late by more than
that and the longest time `L` spent elsewhere, the next call is due a period after each call, and when the program ends no task is overdue by more than `N / 2^24`.
Missing: shorter periods, for which `loop()` need not return (`C65_diverges_counterexample`), as many tasks as the capacity (`C130_capacity_counterexample`), and a bound on the sum of the delays
(`C130_drift_counterexample`). -/
theorem C130_late_partial (hnd : objs.Nodup) (hl : objs.length = cfg.eventsCap) (hs : cfg.eventsCap < 2 ^ 16) (hh : cfg.handlerCap < sizeMod)
    (hhc : 0 < cfg.handlerCap) (hmax : 0 ≤ cfg.maxDelay) {now : Int} (hn : 0 ≤ now) (blank : δ)
    (hbeh : ∀ h tr e, ∃ d, beh h tr e = .schedule e.id (period e.id) d .done) {N : Int} (hN : N ≤ 2 ^ 40)
    (hper : ∀ id, N / 2 ^ 24 < period id ∧ period id ≤ 2 ^ 23)
    {jobs : List (Job δ H)} (hj : jobs ≠ []) (hroom : jobs.length < cfg.eventsCap) (hids : (jobs.map (·.id)).Nodup)
    (hjobs : ∀ j ∈ jobs, j.id < cfg.eventsCount ∧ 0 < j.delay ∧ j.delay ≤ 2 ^ 23)
    (nest : Nat) {fuel : Nat} (hfuel : cfg.eventsCap ≤ fuel) (ws : List Nat)
    (hend : (Cyclic.runSeen near period (nap cfg) ⟨now, started now jobs [], []⟩ ws).clock ≤ N) :
    ∃ s : ES ω δ H, (do let s ← ES.create b cfg objs blank now
                        s.run b beh (nest + 1) fuel (start (polls ws) jobs)) = .ok s ∧
      s.clock = (Cyclic.runSeen near period (nap cfg) ⟨now, started now jobs [], []⟩ ws).clock ∧
      (callLog s.trace).reverse = (Cyclic.runSeen near period (nap cfg) ⟨now, started now jobs [], []⟩ ws).calls ∧
      ∀ j ∈ jobs, ∀ L : Int, (∀ w ∈ ws, (w : Int) ≤ L) →
        ∃ e, Cyclic.PacedSeen (period j.id) L (N / 2 ^ 24) (now + j.delay) (Cyclic.callsOf j.id (callLog s.trace).reverse) e ∧ s.clock ≤ e + N / 2 ^ 24 := by
  have hnap : ∀ most, nap cfg = some most → 0 ≤ most := by
    intro most hm
    unfold nap at hm
    split at hm
    · cases hm; exact hmax
    · cases hm
  obtain ⟨hp, hsorted⟩ := started_spec now jobs []
  have hsorted := hsorted List.Pairwise.nil
  have hmono := Cyclic.clockSeen_le (see := near) (period := period) (nap := nap cfg) ws ⟨now, started now jobs [], []⟩
  simp only at hmono
  have hσ : 0 ≤ N / 2 ^ 24 := by omega
  obtain ⟨s0, e1, e2, e3, e4⟩ := Ticking.create (b := b) (H := H) (blank := blank) hn hnd hl hs hh (by omega)
  obtain ⟨s1, q1, f1, f2, f3, f4⟩ := Ticking.start (b := b) hhc jobs s0 [] e2 (by simpa using hroom) hids hjobs (fun j _ => by rw [e4]; rfl)
    (by rw [e3]; omega)
  rw [e3, e4] at f4
  have f4' : s1.cyclic q1 = ⟨now, started now jobs [], []⟩ := f4
  have hne : q1 ≠ [] := by
    rintro rfl
    simp only [List.length_nil, Nat.zero_add] at f3
    exact hj (List.length_eq_zero_iff.mp f3.symm)
  obtain ⟨s2, q2, g1, g2, g3⟩ := Ticking.runSeen (b := b) hbeh hN (fun id => ⟨(hper id).1, hσ.trans_lt (hper id).1, (hper id).2⟩) hhc hmax nest fuel hfuel ws s1 q1 f2 hne
    (by rw [f4']; exact hend)
  rw [f4'] at g3
  have hclock : s2.clock = (Cyclic.runSeen near period (nap cfg) ⟨now, started now jobs [], []⟩ ws).clock := congrArg Cyclic.State.clock g3
  have hcalls : (callLog s2.trace).reverse = (Cyclic.runSeen near period (nap cfg) ⟨now, started now jobs [], []⟩ ws).calls := congrArg Cyclic.State.calls g3
  refine ⟨s2, ?_, hclock, hcalls, fun j hjm L hL => ?_⟩
  · rw [e1, res_bind_ok, ES.run, f1]; exact g1
  · obtain ⟨cs, e, k1, k2, k3⟩ := Cyclic.runSeen_paced (see := near) (id := j.id) (L := L) (σ := N / 2 ^ 24) (N := N) (nap := nap cfg)
      (fun c h0 hc => by
        have := near_bound c
        rw [abs_of_nonneg h0] at this
        omega)
      (fun id => (hper id).1) hnap ws ⟨now, started now jobs [], []⟩ (now + j.delay)
      hsorted hn (started_single now hids hjm) (by have := (hjobs j hjm).2.1; simp only; omega) hL hend
    rw [hcalls, hclock, k1]
    exact ⟨e, by simpa [Cyclic.callsOf] using k2, k3⟩

/-- Two tasks of periods 1000 and 2500 ms, 50 days after the start; `loop()` sleeps up to 5000 ms. -/
def exampleLateTasks : Config := { eventsCount := 2, eventsCap := 3, handlerCap := 1, delayBetweenTicks := true, minDelay := 100, maxDelay := 5000 }

/-- Non-trivial case: task 0 is due 2003 ms after the start of the program and called after 1986 ms; task 1 is due after 2500 ms and called after 2738 ms, although no more than 300 ms are spent
elsewhere: the clock is read in steps of 512 ms. -/
example : ∃ s : ES Nat Nat Nat, (do let s ← ES.create b exampleLateTasks [0, 1, 2] 0 (2 ^ 32)
                                    s.run b (fun _ _ e => .schedule e.id (if e.id = 0 then 1000 else 2500) e.data .done) 1 3
                                      (start (polls [3, 0, 4, 300, 0, 20]) [⟨0, 7, 1000, 1⟩, ⟨1, 8, 2500, 2⟩])) = .ok s ∧
    (callLog s.trace).reverse = [(0, 2 ^ 32 + 1003), (0, 2 ^ 32 + 1986), (1, 2 ^ 32 + 2738), (0, 2 ^ 32 + 3164)] ∧
    ∃ e, Cyclic.PacedSeen 2500 300 256 (2 ^ 32 + 2500) (Cyclic.callsOf 1 (callLog s.trace).reverse) e ∧ s.clock ≤ e + 256 := by
  have hrun : (fun st : Cyclic.State => (st.clock, st.calls)) (Cyclic.runSeen near (fun id => if id = 0 then 1000 else 2500) (nap exampleLateTasks)
      ⟨2 ^ 32, started (2 ^ 32) [(⟨0, 7, 1000, 1⟩ : Job Nat Nat), ⟨1, 8, 2500, 2⟩] [], []⟩ [3, 0, 4, 300, 0, 20]) =
      (2 ^ 32 + 4344, [(0, 2 ^ 32 + 1003), (0, 2 ^ 32 + 1986), (1, 2 ^ 32 + 2738), (0, 2 ^ 32 + 3164)]) := by decide +kernel
  simp only [Prod.mk.injEq] at hrun
  obtain ⟨s, h1, _, h3, h4⟩ := C130_late_partial (b := b) (cfg := exampleLateTasks) (objs := [0, 1, 2]) (period := fun id => if id = 0 then 1000 else 2500)
    (beh := fun _ _ e => .schedule e.id (if e.id = 0 then 1000 else 2500) e.data .done) (by decide) rfl (by decide) (lt_sizeMod (by decide)) (by decide) (by decide)
    (now := 2 ^ 32) (by decide) (0 : Nat) (fun _ _ e => ⟨e.data, rfl⟩) (N := 2 ^ 32 + 4344) (by decide) (fun id => by split <;> omega)
    (jobs := [⟨0, 7, 1000, 1⟩, ⟨1, 8, 2500, 2⟩]) (by simp) (by decide) (by decide) (by decide) 0 (fuel := 3) (by decide) [3, 0, 4, 300, 0, 20] (by rw [hrun.1])
  exact ⟨s, h1, h3.trans hrun.2, h4 ⟨1, 8, 2500, 2⟩ (by simp) 300 (by decide)⟩

end Spine
