import Verif.Proofs.CyclicBusy
import Verif.Props.Cyclic
/-!
# Periodic tasks that take time: C183
-/

set_option linter.unusedSectionVars false

namespace Spine

variable {ω δ H : Type} [DecidableEq ω] {b : Build} {beh : Behaviour ω δ H} {cfg : Config} {objs : List ω} {period : Nat → Int} {cost : Nat → Nat}

open ES

/-- C183. A program creates a system, attaches one handler per task, schedules their events, and then spends `ws` ms elsewhere between calls of `loop()`, again and again.  Every handler takes
`cost` ms and then schedules its event again, a period ahead.  The tasks fit into `B` ms, also if the clock is read with the error `σ = N / 2^24` of a float at the end `N` of the program.
Then nothing fails and all calls of `loop()` return; every task is called with its own period: a call is early by no more than `σ` and late by no more than `B`, the longest time `L` spent elsewhere and `σ`,
the next call is due a period after the end of a call, and when the program ends no task is overdue by more than `σ`. -/
theorem C183_paced (hnd : objs.Nodup) (hl : objs.length = cfg.eventsCap) (hs : cfg.eventsCap < 2 ^ 16) (hh : cfg.handlerCap < sizeMod)
    (hhc : 0 < cfg.handlerCap) (hmax : 0 ≤ cfg.maxDelay) {now : Int} (hn : 0 ≤ now) (blank : δ)
    (hbeh : ∀ h tr e, ∃ d, beh h tr e = .wait (cost e.id) (.schedule e.id (period e.id) d .done)) {N B : Int} (hN : N ≤ 2 ^ 40)
    (hper : ∀ id, N / 2 ^ 24 < period id ∧ period id ≤ 2 ^ 23)
    {jobs : List (Job δ H)} (hj : jobs ≠ []) (hroom : jobs.length < cfg.eventsCap) (hids : (jobs.map (·.id)).Nodup)
    (hjobs : ∀ j ∈ jobs, j.id < cfg.eventsCount ∧ 0 < j.delay ∧ j.delay ≤ 2 ^ 23)
    (hB0 : 0 ≤ B) (hB : Cyclic.Fits period cost (N / 2 ^ 24) B (jobs.map (·.id)))
    (nest n : Nat) {fuel : Nat} (hcalls : Cyclic.mostCalls period cost (N / 2 ^ 24) B (jobs.map (·.id)) ≤ n) (hfuel : n < fuel) (ws : List Nat)
    (hend : (Cyclic.runBusy near period cost (nap cfg) n ⟨now, started now jobs [], []⟩ ws).clock ≤ N) :
    ∃ s : ES ω δ H, (do let s ← ES.create b cfg objs blank now
                        s.run b beh (nest + 1) fuel (start (polls ws) jobs)) = .ok s ∧
      s.clock = (Cyclic.runBusy near period cost (nap cfg) n ⟨now, started now jobs [], []⟩ ws).clock ∧
      (callLog s.trace).reverse = (Cyclic.runBusy near period cost (nap cfg) n ⟨now, started now jobs [], []⟩ ws).calls ∧
      ∀ j ∈ jobs, ∀ L : Int, (∀ w ∈ ws, (w : Int) ≤ L) →
        ∃ e, Cyclic.PacedSeen (cost j.id + period j.id) (L + B) (N / 2 ^ 24) (now + j.delay) (Cyclic.callsOf j.id (callLog s.trace).reverse) e ∧ s.clock ≤ e + N / 2 ^ 24 := by
  have hnap : ∀ most, nap cfg = some most → 0 ≤ most := by
    intro most hm
    unfold nap at hm
    split at hm
    · cases hm; exact hmax
    · cases hm
  obtain ⟨hp, hsorted⟩ := started_spec now jobs []
  have hsorted := hsorted List.Pairwise.nil
  have hmono := Cyclic.runBusy_clock (see := near) (period := period) (cost := cost) (nap := nap cfg) (n := n) ws ⟨now, started now jobs [], []⟩
  simp only at hmono
  have hN0 : 0 ≤ N := by omega
  have hσ : 0 ≤ N / 2 ^ 24 := by omega
  have hperm : ((started now jobs []).map (·.id)).Perm (jobs.map (·.id)) := by
    have := hp.map (·.id)
    simpa [List.map_map, Function.comp_def] using this
  obtain ⟨s0, e1, e2, e3, e4⟩ := Ticking.create (b := b) (H := H) (blank := blank) hn hnd hl hs hh (by omega)
  obtain ⟨s1, q1, f1, f2, f3, f4⟩ := Ticking.start (b := b) hhc jobs s0 [] e2 (by simpa using hroom) hids hjobs (fun j _ => by rw [e4]; rfl)
    (by rw [e3]; omega)
  rw [e3, e4] at f4
  have f4' : s1.cyclic q1 = ⟨now, started now jobs [], []⟩ := f4
  have hne : q1 ≠ [] := by
    rintro rfl
    simp only [List.length_nil, Nat.zero_add] at f3
    exact hj (List.length_eq_zero_iff.mp f3.symm)
  have htk : s1.tasks q1 = started now jobs [] := congrArg Cyclic.State.tasks f4'
  obtain ⟨s2, q2, g1, g2, g3⟩ := Ticking.runBusy (b := b) hbeh hN hN0 hper hids hB hB0 hhc hmax nest fuel n hcalls hfuel ws s1 q1 f2 hne
    (by rw [htk]; exact hperm) (by rw [f4']; exact hend)
  rw [f4'] at g3
  have hclock : s2.clock = (Cyclic.runBusy near period cost (nap cfg) n ⟨now, started now jobs [], []⟩ ws).clock := congrArg Cyclic.State.clock g3
  have hlog : (callLog s2.trace).reverse = (Cyclic.runBusy near period cost (nap cfg) n ⟨now, started now jobs [], []⟩ ws).calls := congrArg Cyclic.State.calls g3
  refine ⟨s2, ?_, hclock, hlog, fun j hjm L hL => ?_⟩
  · rw [e1, res_bind_ok, ES.run, f1]; exact g1
  · obtain ⟨cs, e, k1, k2, k3⟩ := Cyclic.runBusy_paced (see := near) (period := period) (cost := cost) (n := n) (L := L) (N := N) (nap := nap cfg) hids
      (fun c h0 hc => by
        have := near_bound c
        rw [abs_of_nonneg h0] at this
        omega)
      hσ (fun id => (hper id).1) hB hB0 hcalls hnap j.id ws ⟨now, started now jobs [], []⟩ (now + j.delay) hsorted hperm hn
      (started_single now hids hjm) (by have := (hjobs j hjm).2.1; simp only; omega) hL hend
    rw [hlog, hclock, k1]
    exact ⟨e, by simpa [Cyclic.callsOf] using k2, k3⟩

/-- Non-trivial case: tasks that take 2 and 5 ms and are due again 10 and 25 ms later fit into 7 ms. -/
example : ∃ s : ES Nat Nat Nat, (do let s ← ES.create b exampleTasks [0, 1, 2] 0 0
                                    s.run b (fun _ _ e => .wait (if e.id = 0 then 2 else 5) (.schedule e.id (if e.id = 0 then 10 else 25) e.data .done)) 1 3
                                      (start (polls [3, 0, 4, 12, 0, 2]) [⟨0, 7, 10, 1⟩, ⟨1, 8, 25, 2⟩])) = .ok s ∧
    (s.clock, (callLog s.trace).reverse) = (88, [(0, 10), (0, 26), (1, 28), (0, 50), (1, 58), (0, 63), (0, 77)]) ∧
    ∃ e, Cyclic.PacedSeen 30 19 0 25 (Cyclic.callsOf 1 (callLog s.trace).reverse) e ∧ s.clock ≤ e := by
  have hrun : (fun st : Cyclic.State => (st.clock, st.calls)) (Cyclic.runBusy near (fun id => if id = 0 then 10 else 25) (fun id => if id = 0 then 2 else 5) (nap exampleTasks) 2
      ⟨0, started 0 [(⟨0, 7, 10, 1⟩ : Job Nat Nat), ⟨1, 8, 25, 2⟩] [], []⟩ [3, 0, 4, 12, 0, 2]) = (88, [(0, 10), (0, 26), (1, 28), (0, 50), (1, 58), (0, 63), (0, 77)]) := by decide +kernel
  simp only [Prod.mk.injEq] at hrun ⊢
  obtain ⟨s, h1, h2, h3, h4⟩ := C183_paced (b := b) (cfg := exampleTasks) (objs := [0, 1, 2]) (period := fun id => if id = 0 then 10 else 25)
    (cost := fun id => if id = 0 then 2 else 5)
    (beh := fun _ _ e => .wait (if e.id = 0 then 2 else 5) (.schedule e.id (if e.id = 0 then 10 else 25) e.data .done)) (by decide) rfl (by decide) (lt_sizeMod (by decide)) (by decide)
    (by decide) (le_refl 0) (0 : Nat) (fun _ _ e => ⟨e.data, rfl⟩) (N := 1000) (B := 7) (by decide) (fun id => by split <;> omega)
    (jobs := [⟨0, 7, 10, 1⟩, ⟨1, 8, 25, 2⟩]) (by simp) (by decide) (by decide) (by decide) (by decide) (by unfold Cyclic.Fits; decide) 0 2 (fuel := 3) (by decide) (by decide)
    [3, 0, 4, 12, 0, 2] (by rw [hrun.1]; decide)
  refine ⟨s, h1, ⟨h2.trans hrun.1, h3.trans hrun.2⟩, ?_⟩
  have := h4 ⟨1, 8, 25, 2⟩ (by simp) 12 (by decide)
  simpa using this

/-- C183. Tasks that keep the processor busy for less than all of the time, if each is due as often as possible, fit into some time. -/
theorem C183_utilisation (period : Nat → Int) (cost : Nat → Nat) {σ : Int} (hper : ∀ id, σ < period id) (ids : List Nat)
    (hu : (ids.map fun i => (cost i : Rat) / (cost i + period i - σ)).sum < 1) : ∃ B, 0 ≤ B ∧ Cyclic.Fits period cost σ B ids := by
  have key : ∀ (B : Int) (l : List Nat), (((l.map fun i => (cost i : Int) * (B / (cost i + period i - σ) + 1)).sum : Int) : Rat) ≤
      (l.map fun i => (cost i : Rat) / (cost i + period i - σ)).sum * B + (l.map fun i => (cost i : Rat)).sum := by
    intro B l
    induction l with
    | nil => simp
    | cons i l ih =>
      simp only [List.map_cons, List.sum_cons]
      have hp : 0 < (cost i : Int) + period i - σ := by have := hper i; omega
      have hp' : (0 : Rat) < (cost i : Rat) + period i - σ := by exact_mod_cast hp
      have hdiv : ((B / ((cost i : Int) + period i - σ) : Int) : Rat) ≤ (B : Rat) / ((cost i : Rat) + period i - σ) := by
        rw [le_div_iff₀ hp']
        have := Int.ediv_mul_le B hp.ne'
        exact_mod_cast this
      have hc : (0 : Rat) ≤ cost i := by positivity
      have h1 := mul_le_mul_of_nonneg_left hdiv hc
      push_cast
      have e1 : (cost i : Rat) * ((B : Rat) / ((cost i : Rat) + period i - σ)) = (cost i : Rat) / ((cost i : Rat) + period i - σ) * B := by ring
      rw [e1] at h1
      push_cast at ih
      linarith
  set U := (ids.map fun i => (cost i : Rat) / (cost i + period i - σ)).sum with hU
  set S := (ids.map fun i => (cost i : Rat)).sum with hS
  have hS0 : 0 ≤ S := by
    apply List.sum_nonneg
    intro x hx
    obtain ⟨i, _, rfl⟩ := List.mem_map.mp hx
    positivity
  have hU1 : 0 < 1 - U := by linarith
  refine ⟨⌈S / (1 - U)⌉, Int.ceil_nonneg (div_nonneg hS0 hU1.le), ?_⟩
  have h1 := key ⌈S / (1 - U)⌉ ids
  rw [← hU, ← hS] at h1
  have h2 := Int.le_ceil (S / (1 - U))
  rw [div_le_iff₀ hU1] at h2
  unfold Cyclic.Fits
  have h3 : (((ids.map fun i => (cost i : Int) * (⌈S / (1 - U)⌉ / (cost i + period i - σ) + 1)).sum : Int) : Rat) ≤ ((⌈S / (1 - U)⌉ : Int) : Rat) := by linarith
  exact_mod_cast h3

/-- Non-trivial case: 2 / 12 + 5 / 30 is less than 1. -/
example : ∃ B, 0 ≤ B ∧ Cyclic.Fits (fun id => if id = 0 then 10 else 25) (fun id => if id = 0 then 2 else 5) 0 B [0, 1] :=
  C183_utilisation _ _ (fun id => by split <;> omega) _ (by norm_num)

namespace ES

/-- As long as a task is due, the loop goes on. -/
theorem Ticking.stuck (hbeh : ∀ y tr e, ∃ d, beh y tr e = .wait (cost e.id) (.schedule e.id (period e.id) d .done))
    (hper : ∀ id, 0 < period id ∧ period id ≤ 2 ^ 23) (hhc : 0 < cfg.handlerCap) (rounds nest : Nat) :
    ∀ (fuel : Nat) (s : ES ω δ H) (q : List (Item ω)), Ticking cfg objs s q →
      (∀ k, k < fuel → ∃ x l, (Cyclic.serveBusy near period cost k (s.cyclic q)).tasks = x :: l ∧ x.deadline ≤ near (Cyclic.serveBusy near period cost k (s.cyclic q)).clock) →
      (Cyclic.serveBusy near period cost fuel (s.cyclic q)).clock ≤ 2 ^ 40 → s.drain b beh rounds (nest + 1) fuel = .error .fuel := by
  intro fuel
  induction fuel with
  | zero => intro s q _ _ _; rfl
  | succ fuel ih =>
    intro s q h hdue hc
    obtain ⟨y, l, hy, hyd⟩ := hdue 0 (by omega)
    cases q with
    | nil => cases hy
    | cons x q =>
      have ht : (s.cyclic (x :: q)).tasks = ⟨(s.pipe.heap x.obj).id, x.deadline⟩ :: s.tasks q := rfl
      have hx : x.deadline ≤ near s.clock := by
        have hy' : (⟨(s.pipe.heap x.obj).id, x.deadline⟩ : Cyclic.Task) :: s.tasks q = y :: l := hy
        obtain ⟨hy', _⟩ := List.cons_eq_cons.mp hy'
        rw [← hy'] at hyd
        exact hyd
      have hcyc : ∀ (s1 : ES ω δ H) (q1 : List (Item ω)), s1.clock = s.clock + cost (s.pipe.heap x.obj).id →
          s1.tasks q1 = Cyclic.insert ⟨(s.pipe.heap x.obj).id, s.clock + cost (s.pipe.heap x.obj).id + period (s.pipe.heap x.obj).id⟩ (s.tasks q) →
          callLog s1.trace = ((s.pipe.heap x.obj).id, s.clock) :: callLog s.trace →
          s1.cyclic q1 = Cyclic.next period cost (s.cyclic (x :: q)) ⟨(s.pipe.heap x.obj).id, x.deadline⟩ (s.tasks q) := by
        intro s1 q1 h2 h3 h4
        simp only [cyclic, Cyclic.next, h2, h3, h4, List.reverse_cons]
      rw [Cyclic.serveBusy_due ht hx] at hc
      obtain ⟨s1, q1, h1, h2, h3, h4, h5⟩ := h.work (b := b) hbeh hper hhc (le_trans (Cyclic.serveBusy_clock fuel _) hc) hx
      have hcy := hcyc s1 q1 h2 h3 h4
      rw [h5]
      refine ih s1 q1 h1 (fun k hk => ?_) (by rw [hcy]; exact hc)
      have := hdue (k + 1) (by omega)
      rw [Cyclic.serveBusy_due ht hx] at this
      rw [hcy]; exact this

end ES

/-- Two tasks in turn. -/
theorem Cyclic.bounce {T : Nat} : ∀ (k : Nat) (a c : Nat) (t : Int) (calls : List (Nat × Int)), 0 ≤ t → t + k * T ≤ 2 ^ 24 →
    ∃ a' c' calls', serveBusy near (fun _ => (T : Int)) (fun _ => T) k ⟨t, [⟨a, t⟩, ⟨c, t + T⟩], calls⟩ = ⟨t + k * T, [⟨a', t + k * T⟩, ⟨c', t + k * T + T⟩], calls'⟩
  | 0, a, c, t, calls, _, _ => ⟨a, c, calls, by simp [serveBusy]⟩
  | k + 1, a, c, t, calls, h0, h => by
    have hk : 0 ≤ (k : Int) * T := by positivity
    push_cast at h ⊢
    have e : ((k : Int) + 1) * T = k * T + T := by ring
    rw [e] at h ⊢
    have hnear : near t = t := near_eq (by rw [abs_of_nonneg h0]; omega)
    obtain ⟨a', c', calls', ih⟩ := Cyclic.bounce (T := T) k c a (t + T) (calls ++ [(a, t)]) (by omega) (by omega)
    refine ⟨a', c', calls', ?_⟩
    rw [serveBusy_due (x := ⟨a, t⟩) (l := [⟨c, t + T⟩]) rfl (by simp only [hnear]; exact le_refl _)]
    have hn : next (fun _ => (T : Int)) (fun _ => T) ⟨t, [⟨a, t⟩, ⟨c, t + T⟩], calls⟩ ⟨a, t⟩ [⟨c, t + T⟩] = ⟨t + T, [⟨c, t + T⟩, ⟨a, t + T + T⟩], calls ++ [(a, t)]⟩ := by
      have : decide (t + (T : Int) ≤ t + T + T) = true := by simp
      simp [next, insert, List.takeWhile_cons, List.dropWhile_cons]
    rw [hn, ih]
    simp only [State.mk.injEq, List.cons.injEq, Task.mk.injEq, and_true, true_and]
    omega

/-- C183, the limit: two tasks that take as long as their period `T` keep the processor busy all of the time, 1/2 + 1/2, and the first call of `loop()` that finds them due does not return:
it goes on for any number `fuel` of calls that end in the first 2^24 ms, 4.6 hours. -/
theorem C183_overload (T fuel : Nat) (hT0 : 0 < T) (hend : (fuel + 3) * T ≤ 2 ^ 24) :
    (do let s : ES Nat Nat Nat ← ES.create b exampleTasks [0, 1, 2] 0 0
        s.run b (fun _ _ e => .wait T (.schedule e.id T e.data .done)) 1 fuel (start (polls [T]) [⟨0, 7, T, 1⟩, ⟨1, 8, T, 2⟩])) = .error .fuel := by
  have hT : (T : Int) ≤ 2 ^ 23 := by
    have : 3 * T ≤ (fuel + 3) * T := Nat.mul_le_mul_right _ (by omega)
    omega
  have hjobs : ∀ j ∈ [(⟨0, 7, T, 1⟩ : Job Nat Nat), ⟨1, 8, T, 2⟩], j.id < exampleTasks.eventsCount ∧ 0 < j.delay ∧ j.delay ≤ 2 ^ 23 := by
    intro j hj
    simp only [List.mem_cons, List.not_mem_nil, or_false] at hj
    rcases hj with rfl | rfl
    · exact ⟨by simp [exampleTasks], by simp only; omega, hT⟩
    · exact ⟨by simp [exampleTasks], by simp only; omega, hT⟩
  obtain ⟨s0, e1, e2, e3, e4⟩ := Ticking.create (b := b) (H := Nat) (blank := (0 : Nat)) (cfg := exampleTasks) (objs := [0, 1, 2]) (le_refl 0) (by decide) rfl (by decide)
    (lt_sizeMod (by decide)) (by decide)
  obtain ⟨s1, q1, f1, f2, f3, f4⟩ := Ticking.start (b := b) (by decide) [(⟨0, 7, T, 1⟩ : Job Nat Nat), ⟨1, 8, T, 2⟩] s0 [] e2 (by simp [exampleTasks]) (by simp) hjobs
    (fun j _ => by rw [e4]; rfl) (by rw [e3]; decide)
  rw [e3, e4] at f4
  have hw := f2.wait T
  have hcyc : ({ s1 with clock := s1.clock + T } : ES Nat Nat Nat).cyclic q1 = ⟨T, [⟨0, T⟩, ⟨1, T⟩], []⟩ := by
    have h1 : s1.clock = 0 := congrArg Cyclic.State.clock f4
    have h2 : s1.tasks q1 = _ := congrArg Cyclic.State.tasks f4
    have h3 : (callLog s1.trace).reverse = [] := congrArg Cyclic.State.calls f4
    have h2' : ({ s1 with clock := s1.clock + T } : ES Nat Nat Nat).tasks q1 = s1.tasks q1 := rfl
    rw [cyclic, h2', h2]
    simp only [h1, h3, zero_add, Cyclic.State.mk.injEq, true_and, and_true]
    simp [started, Cyclic.insert, tasks, List.takeWhile_cons, List.dropWhile_cons]
  have hdrain : ({ s1 with clock := s1.clock + T } : ES Nat Nat Nat).drain b (fun _ _ e => .wait T (.schedule e.id T e.data .done)) fuel 1 fuel = .error .fuel := by
    have hTe : ∀ k : Nat, k ≤ fuel → (T : Int) + T + T + k * T ≤ 2 ^ 24 := by
      intro k hk
      have h1 : (k + 3) * T ≤ (fuel + 3) * T := Nat.mul_le_mul_right _ (by omega)
      have h2 : ((k + 3) * T : Nat) ≤ 2 ^ 24 := h1.trans hend
      have h3 : (((k + 3) * T : Nat) : Int) = T + T + T + k * T := by push_cast; ring
      omega
    have hk0 : ∀ k : Nat, 0 ≤ (k : Int) * T := fun k => by positivity
    -- the first two calls
    have hn1 : near (T : Int) = T := near_eq (by rw [abs_of_nonneg (by omega)]; omega)
    have hn2 : near ((T : Int) + T) = T + T := near_eq (by rw [abs_of_nonneg (by omega)]; have := hTe 0 (by omega); omega)
    have step1 : ∀ k, Cyclic.serveBusy near (fun _ => (T : Int)) (fun _ => T) (k + 1) ⟨T, [⟨0, T⟩, ⟨1, T⟩], []⟩ =
        Cyclic.serveBusy near (fun _ => (T : Int)) (fun _ => T) k ⟨T + T, [⟨1, T⟩, ⟨0, T + T + T⟩], [(0, (T : Int))]⟩ := by
      intro k
      rw [Cyclic.serveBusy_due (x := ⟨0, T⟩) (l := [⟨1, T⟩]) rfl (by simp only [hn1]; exact le_refl _)]
      congr 1
      have : decide ((T : Int) ≤ T + T + T) = true := by rw [decide_eq_true_eq]; omega
      simp [Cyclic.next, Cyclic.insert, List.takeWhile_cons, List.dropWhile_cons, this]
    have step2 : ∀ k, Cyclic.serveBusy near (fun _ => (T : Int)) (fun _ => T) (k + 2) ⟨T, [⟨0, T⟩, ⟨1, T⟩], []⟩ =
        Cyclic.serveBusy near (fun _ => (T : Int)) (fun _ => T) k ⟨T + T + T, [⟨0, T + T + T⟩, ⟨1, T + T + T + T⟩], [(0, (T : Int)), (1, T + T)]⟩ := by
      intro k
      rw [step1, Cyclic.serveBusy_due (x := ⟨1, T⟩) (l := [⟨0, T + T + T⟩]) rfl (by simp only [hn2]; omega)]
      congr 1
      have : decide ((T : Int) + T + T ≤ T + T + T + T) = true := by simp
      simp [Cyclic.next, Cyclic.insert, List.takeWhile_cons, List.dropWhile_cons]
    refine Ticking.stuck (b := b) (cost := fun _ => T) (period := fun _ => (T : Int)) (fun _ _ e => ⟨e.data, rfl⟩) (fun _ => ⟨by omega, hT⟩) (by decide) fuel 0 fuel _ q1 hw ?_ ?_
    · intro k hk
      rw [hcyc]
      match k with
      | 0 => exact ⟨_, _, rfl, by simp only [Cyclic.serveBusy, hn1]; exact le_refl _⟩
      | 1 =>
        rw [step1]
        exact ⟨_, _, rfl, by simp only [Cyclic.serveBusy, hn2]; omega⟩
      | k + 2 =>
        rw [step2]
        obtain ⟨a, c, calls, h⟩ := Cyclic.bounce (T := T) k 0 1 (T + T + T) [(0, (T : Int)), (1, T + T)] (by omega) (hTe k (by omega))
        rw [h]
        have hk1 := hTe k (by omega)
        refine ⟨_, _, rfl, ?_⟩
        have := hk0 k
        simp only
        rw [near_eq (by rw [abs_of_nonneg (by omega)]; exact hk1)]
    · rw [hcyc]
      match fuel with
      | 0 => simp only [Cyclic.serveBusy]; omega
      | 1 => rw [step1]; simp only [Cyclic.serveBusy]; omega
      | k + 2 =>
        rw [step2]
        obtain ⟨a, c, calls, h⟩ := Cyclic.bounce (T := T) k 0 1 (T + T + T) [(0, (T : Int)), (1, T + T)] (by omega) (hTe k (by omega))
        rw [h]
        exact (hTe k (by omega)).trans (by norm_num)
  have hloop : ({ s1 with clock := s1.clock + T } : ES Nat Nat Nat).loop b (fun _ _ e => .wait T (.schedule e.id T e.data .done)) 1 fuel = .error .fuel := by
    have hd : ({ s1 with clock := s1.clock + T } : ES Nat Nat Nat).drainWith b (trigger b (fun _ _ e => .wait T (.schedule e.id T e.data .done)) fuel 1 0) 0 fuel = .error .fuel := hdrain
    rw [ES.loop, loopWith, hd]
    rfl
  rw [e1, res_bind_ok, ES.run, f1]
  simp only [polls, exec]
  have : ({ s1 with clock := s1.clock + T } : ES Nat Nat Nat).loop b (fun _ _ e => .wait T (.schedule e.id T e.data .done)) 1 fuel = .error .fuel := hloop
  rw [this]
  rfl

end Spine
