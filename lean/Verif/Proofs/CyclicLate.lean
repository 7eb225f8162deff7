import Verif.Spec.CyclicLate
import Verif.Proofs.Cyclic
/-!
# Proofs about periodic tasks at any uptime
-/

set_option linter.unusedSectionVars false

namespace Spine

variable {ω δ H : Type} [DecidableEq ω] {b : Build}

/-! ### The specification -/

namespace Cyclic

variable {see : Int → Int} {period : Nat → Int} {nap : Option Int} {st : State}

theorem serveSeen_sorted (h : Sorted st.tasks) : Sorted (serveSeen see period st).tasks := by
  refine (serve_tasks period st.clock _ _).2 ?_
  have h' := h
  unfold Sorted at h' ⊢
  rw [← List.takeWhile_append_dropWhile (p := fun z : Task => decide (z.deadline ≤ see st.clock)) (l := st.tasks), List.pairwise_append] at h'
  exact h'.2.1

theorem serveSeen_later (h : Sorted st.tasks) (hper : ∀ id, see st.clock < st.clock + period id) : ∀ z ∈ (serveSeen see period st).tasks, see st.clock < z.deadline := by
  intro z hz
  have := (serve_tasks period st.clock (st.tasks.takeWhile fun z => decide (z.deadline ≤ see st.clock))
    (st.tasks.dropWhile fun z => decide (z.deadline ≤ see st.clock))).1.mem_iff.mp hz
  rcases List.mem_append.mp this with hz | hz
  · exact after h z hz
  · obtain ⟨y, _, rfl⟩ := List.mem_map.mp hz
    exact hper y.id

theorem serveSeen_nonempty (h : st.tasks ≠ []) : (serveSeen see period st).tasks ≠ [] := by
  intro he
  have hp := (serve_tasks period st.clock (st.tasks.takeWhile fun z => decide (z.deadline ≤ see st.clock))
    (st.tasks.dropWhile fun z => decide (z.deadline ≤ see st.clock))).1.length_eq
  have he' : (List.foldl (fun l x => insert ⟨x.id, st.clock + period x.id⟩ l) (st.tasks.dropWhile fun z => decide (z.deadline ≤ see st.clock))
    (st.tasks.takeWhile fun z => decide (z.deadline ≤ see st.clock))) = [] := he
  rw [he'] at hp
  have hl := congrArg List.length (List.takeWhile_append_dropWhile (p := fun z : Task => decide (z.deadline ≤ see st.clock)) (l := st.tasks))
  simp only [List.length_append, List.length_nil, List.length_map] at hp hl
  exact h (List.length_eq_zero_iff.mp (by omega))

/-- Sleeping ends before the first deadline passes, up to the error in reading the clock. -/
theorem sleepSeen_spec {σ : Int} (h : Sorted st.tasks) (hl : ∀ z ∈ st.tasks, see st.clock < z.deadline) (hσ : st.clock - see st.clock ≤ σ)
    (hnap : ∀ most, nap = some most → 0 ≤ most) :
    (sleepSeen see nap st).tasks = st.tasks ∧ (sleepSeen see nap st).calls = st.calls ∧ st.clock ≤ (sleepSeen see nap st).clock ∧
      ∀ z ∈ st.tasks, (sleepSeen see nap st).clock ≤ z.deadline + σ := by
  unfold sleepSeen
  split
  · next most x l htl =>
    have h1 := hl x (by rw [htl]; simp)
    have h2 := hnap most rfl
    refine ⟨rfl, rfl, by simp only; omega, fun z hz => ?_⟩
    have : x.deadline ≤ z.deadline := by
      rw [htl] at hz h
      rcases List.mem_cons.mp hz with rfl | hz
      · exact le_refl _
      · exact (List.pairwise_cons.mp h).1 z hz
    simp only; omega
  · refine ⟨rfl, rfl, le_refl _, fun z hz => ?_⟩
    have := hl z hz
    omega

/-- What one round does to one task. -/
theorem serveSeen_one {id : Nat} {D : Int} (hs : Sorted st.tasks) (h : st.tasks.filter (fun z => decide (z.id = id)) = [⟨id, D⟩]) :
    (serveSeen see period st).tasks.filter (fun z => decide (z.id = id)) = [⟨id, if D ≤ see st.clock then st.clock + period id else D⟩] ∧
      callsOf id (serveSeen see period st).calls = callsOf id st.calls ++ if D ≤ see st.clock then [st.clock] else [] := by
  obtain ⟨h1, h2⟩ := split_single (c := see st.clock) hs h
  constructor
  · have hp := ((serve_tasks period st.clock (st.tasks.takeWhile fun z => decide (z.deadline ≤ see st.clock))
      (st.tasks.dropWhile fun z => decide (z.deadline ≤ see st.clock))).1.filter (fun z => decide (z.id = id)))
    rw [List.filter_append, h2, List.filter_map] at hp
    have hcomp : ((fun z : Task => decide (z.id = id)) ∘ fun x : Task => (⟨x.id, st.clock + period x.id⟩ : Task)) = fun z : Task => decide (z.id = id) := rfl
    rw [hcomp, h1] at hp
    have hp' : ((serveSeen see period st).tasks.filter fun z => decide (z.id = id)).Perm [⟨id, if D ≤ see st.clock then st.clock + period id else D⟩] := by
      refine hp.trans (List.Perm.of_eq ?_)
      split <;> rfl
    exact List.perm_singleton.mp hp'
  · show callsOf id (st.calls ++ _) = _
    rw [callsOf_append, callsOf_map, h1]
    split <;> rfl

/-- The clock runs forward. -/
theorem clockSeen_le : ∀ (ws : List Nat) (st : State), st.clock ≤ (runSeen see period nap st ws).clock
  | [], st => le_refl _
  | w :: ws, st => by
    have h3 : st.clock + w ≤ (roundSeen see period nap st w).clock := by
      unfold roundSeen sleepSeen
      split
      · simp only [serveSeen]; omega
      · exact le_refl _
    have h2 := clockSeen_le ws (roundSeen see period nap st w)
    show st.clock ≤ (runSeen see period nap (roundSeen see period nap st w) ws).clock
    omega

theorem waitSeen_le (w : Nat) (ws : List Nat) (st : State) : st.clock + w ≤ (runSeen see period nap st (w :: ws)).clock := by
  have h := clockSeen_le (see := see) (period := period) (nap := nap) ws (roundSeen see period nap st w)
  have h3 : st.clock + w ≤ (roundSeen see period nap st w).clock := by
    unfold roundSeen sleepSeen
    split
    · simp only [serveSeen]; omega
    · exact le_refl _
  exact h3.trans h

/-- A task is called at its pace, up to the error in reading the clock. -/
theorem runSeen_paced {id : Nat} {L σ N : Int} (hsee : ∀ c, 0 ≤ c → c ≤ N → abs (see c - c) ≤ σ) (hper : ∀ id, σ < period id)
    (hnap : ∀ most, nap = some most → 0 ≤ most) :
    ∀ (ws : List Nat) (st : State) (D : Int), Sorted st.tasks → 0 ≤ st.clock → st.tasks.filter (fun z => decide (z.id = id)) = [⟨id, D⟩] → st.clock ≤ D + σ →
      (∀ w ∈ ws, (w : Int) ≤ L) → (runSeen see period nap st ws).clock ≤ N →
      ∃ cs e, callsOf id (runSeen see period nap st ws).calls = callsOf id st.calls ++ cs ∧ PacedSeen (period id) L σ D cs e ∧
        (runSeen see period nap st ws).clock ≤ e + σ
  | [], st, D, _, _, _, hc, _, _ => ⟨[], D, by simp [runSeen], rfl, hc⟩
  | w :: ws, st, D, hs, h0, h, hc, hw, hN => by
    have hs1 := serveSeen_sorted (see := see) (period := period) (st := { st with clock := st.clock + w }) hs
    obtain ⟨h1, h2⟩ := serveSeen_one (see := see) (period := period) (st := { st with clock := st.clock + w }) hs h
    have hcN := (waitSeen_le (see := see) (period := period) (nap := nap) w ws st).trans hN
    have hse := hsee (st.clock + w) (by omega) hcN
    rw [abs_le] at hse
    have hlater := serveSeen_later (see := see) (period := period) (st := { st with clock := st.clock + w }) hs (fun id => by
      have := hper id
      simp only; omega)
    obtain ⟨g1, g2, g3, g4⟩ := sleepSeen_spec (see := see) (nap := nap) (σ := σ) hs1 hlater (by simp only [serveSeen]; omega) hnap
    have hwL := hw w (by simp)
    simp only at h1 h2
    set D' := if D ≤ see (st.clock + w) then st.clock + w + period id else D with hD'
    have hmem : (⟨id, D'⟩ : Task) ∈ (serveSeen see period { st with clock := st.clock + w }).tasks := by
      have : (⟨id, D'⟩ : Task) ∈ (serveSeen see period { st with clock := st.clock + w }).tasks.filter (fun z => decide (z.id = id)) := by rw [h1]; simp
      exact (List.mem_filter.mp this).1
    have g3' : st.clock + w ≤ (roundSeen see period nap st w).clock := g3
    obtain ⟨cs, e, k1, k2, k3⟩ := runSeen_paced (L := L) (id := id) hsee hper hnap ws (roundSeen see period nap st w) D' (by unfold roundSeen; rw [g1]; exact hs1)
      (by omega) (by unfold roundSeen; rw [g1]; exact h1) (g4 _ hmem) (fun w' hw' => hw w' (by simp [hw'])) hN
    refine ⟨(if D ≤ see (st.clock + w) then [st.clock + w] else []) ++ cs, e, ?_, ?_, k3⟩
    · show callsOf id (runSeen see period nap (roundSeen see period nap st w) ws).calls = _
      have g2' : (roundSeen see period nap st w).calls = (serveSeen see period { st with clock := st.clock + w }).calls := g2
      rw [k1, g2', h2, List.append_assoc]
    · by_cases hd : D ≤ see (st.clock + w)
      · simp only [hd, if_true] at hD' ⊢
        rw [hD'] at k2
        exact ⟨by omega, by omega, k2⟩
      · simp only [hd, if_false] at hD' ⊢
        rw [hD'] at k2
        exact k2

end Cyclic

/-! ### The event system follows the specification -/

namespace ES

variable {beh : Behaviour ω δ H} {cfg : Config} {objs : List ω} {s s' : ES ω δ H} {q : List (Item ω)} {period : Nat → Int}

/-- The loop serves the tasks that appear to be due. -/
theorem Ticking.drainSeen (hbeh : ∀ y tr e, ∃ d, beh y tr e = .schedule e.id (period e.id) d .done)
    (hper : ∀ id, 0 < period id ∧ period id ≤ 2 ^ 23) (hhc : 0 < cfg.handlerCap) (rounds nest : Nat) :
    ∀ (n : Nat) (s : ES ω δ H) (q : List (Item ω)), Ticking cfg objs s q → s.clock ≤ 2 ^ 40 → (∀ id, near s.clock < s.clock + period id) →
      ((s.tasks q).takeWhile fun z => decide (z.deadline ≤ near s.clock)).length = n → ∀ fuel, n < fuel →
      ∃ s1 q1, s.drain b beh rounds (nest + 1) fuel = .ok s1 ∧ Ticking cfg objs s1 q1 ∧
        (⟨s1.clock, s1.tasks q1, (callLog s1.trace).reverse⟩ : Cyclic.State) = Cyclic.serveSeen near period ⟨s.clock, s.tasks q, (callLog s.trace).reverse⟩ := by
  intro n
  induction n with
  | zero =>
    intro s q h hc hlt hn fuel hf
    obtain ⟨fuel, rfl⟩ : ∃ k, fuel = k + 1 := ⟨fuel - 1, by omega⟩
    obtain ⟨heap', e1, e2, e3⟩ := Pipe.containsExpired_spec (b := b) h.inv.pipe h.inv.clock hc
    have hnone : (s.tasks q).takeWhile (fun z => decide (z.deadline ≤ near s.clock)) = [] := List.length_eq_zero_iff.mp hn
    have hfalse : q.head?.any (fun x => decide (x.deadline ≤ near s.clock)) = false := by
      cases q with
      | nil => rfl
      | cons y q =>
        simp only [tasks, List.map_cons, List.takeWhile_cons] at hnone
        split at hnone
        · cases hnone
        · next hd => simpa using hd
    rw [hfalse] at e1
    have hids : ∀ o, (heap' o).id = (s.pipe.heap o).id := fun o => by obtain ⟨f, hf⟩ := e2 o; rw [hf]
    refine ⟨{ s with pipe := { s.pipe with heap := heap' } }, q, ?_, ?_, ?_⟩
    · rw [ES.drain, drainWith, e1]; rfl
    · refine ⟨h.inv.same e2 e3, h.conf, h.locals, h.out, h.map.same rfl rfl (fun _ => rfl), h.room, fun y hy => ?_⟩
      have := h.ready y hy
      simp only [hids]; exact this
    · have htk : ({ s with pipe := { s.pipe with heap := heap' } } : ES ω δ H).tasks q = s.tasks q := by
        simp only [tasks, hids]
      have hdrop : (s.tasks q).dropWhile (fun z => decide (z.deadline ≤ near s.clock)) = s.tasks q := by
        have := List.takeWhile_append_dropWhile (p := fun z : Cyclic.Task => decide (z.deadline ≤ near s.clock)) (l := s.tasks q)
        rw [hnone] at this; exact this
      simp only [Cyclic.serveSeen, hnone, List.foldl_nil, List.map_nil, List.append_nil, htk, hdrop]
  | succ n ih =>
    intro s q h hc hlt hn fuel hf
    obtain ⟨fuel, rfl⟩ : ∃ k, fuel = k + 1 := ⟨fuel - 1, by omega⟩
    cases q with
    | nil => simp [tasks] at hn
    | cons x q =>
      by_cases hx : x.deadline ≤ near s.clock
      · obtain ⟨s1, q1, h1, h2, h3, h4, h5⟩ := h.fire (b := b) hbeh hper hhc hc hx
        have hlate : near s.clock < (⟨(s.pipe.heap x.obj).id, s.clock + period (s.pipe.heap x.obj).id⟩ : Cyclic.Task).deadline := hlt _
        have htw : ((s1.tasks q1).takeWhile fun z => decide (z.deadline ≤ near s.clock)) = (s.tasks q).takeWhile fun z => decide (z.deadline ≤ near s.clock) := by
          rw [h3, Cyclic.takeWhile_insert hlate]
        have hdw : ((s1.tasks q1).dropWhile fun z => decide (z.deadline ≤ near s.clock)) =
            Cyclic.insert ⟨(s.pipe.heap x.obj).id, s.clock + period (s.pipe.heap x.obj).id⟩ ((s.tasks q).dropWhile fun z => decide (z.deadline ≤ near s.clock)) := by
          rw [h3, Cyclic.dropWhile_insert hlate]
        have hcons : s.tasks (x :: q) = ⟨(s.pipe.heap x.obj).id, x.deadline⟩ :: s.tasks q := rfl
        rw [hcons, List.takeWhile_cons] at hn
        simp only [hx, decide_true, if_true, List.length_cons] at hn
        obtain ⟨s2, q2, h6, h7, h8⟩ := ih s1 q1 h1 (by rw [h2]; exact hc) (by rw [h2]; exact hlt) (by rw [h2, htw]; omega) fuel (by omega)
        refine ⟨s2, q2, by rw [h5]; exact h6, h7, h8.trans ?_⟩
        simp only [Cyclic.serveSeen, h2, htw, hdw, h4, hcons, List.takeWhile_cons, List.dropWhile_cons, hx, decide_true, if_true, List.foldl_cons, List.map_cons,
          List.reverse_cons, List.append_assoc, List.singleton_append]
      · rw [show s.tasks (x :: q) = ⟨(s.pipe.heap x.obj).id, x.deadline⟩ :: s.tasks q from rfl, List.takeWhile_cons] at hn
        simp [hx] at hn

theorem Ticking.sleepSeen (h : Ticking cfg objs s q) (hne : q ≠ []) (hc : s.clock ≤ 2 ^ 40) (hl : ∀ z ∈ s.tasks q, near s.clock < z.deadline) (hmax : 0 ≤ cfg.maxDelay) :
    ∃ s1, s.sleep b = .ok s1 ∧ Ticking cfg objs s1 q ∧ s1.cyclic q = Cyclic.sleepSeen near (nap cfg) (s.cyclic q) := by
  cases q with
  | nil => exact absurd rfl hne
  | cons x q =>
    unfold ES.sleep
    rw [h.conf, h.inv.pipe.contains]
    by_cases hd : cfg.delayBetweenTicks = true
    · simp only [hd, if_true, List.isEmpty_cons, Bool.not_false]
      rw [Pipe.timeUntilNext_spec (b := b) h.inv.pipe h.inv.clock hc]
      have hx := hl ⟨(s.pipe.heap x.obj).id, x.deadline⟩ (by simp [tasks])
      simp only at hx
      have hhigh := h.inv.pipe.high x (by simp)
      have hnc := near_clock h.inv.clock hc
      rw [abs_le] at hnc
      have hmd : Spine.maxDelay = 2 ^ 23 := rfl
      have hnx : ¬ x.deadline ≤ near s.clock := by omega
      simp only [List.head?_cons, if_neg hnx, res_bind_ok, res_pure]
      have hmod : (min (x.deadline - near s.clock) cfg.maxDelay) % 2 ^ 32 = min (x.deadline - near s.clock) cfg.maxDelay := by
        apply Int.emod_eq_of_lt <;> omega
      rw [hmod]
      refine ⟨_, rfl, ⟨h.inv.slept _, h.conf, h.locals, h.out, h.map.same rfl rfl (fun _ => rfl), h.room, h.ready⟩, ?_⟩
      have hmm : max (min (x.deadline - near s.clock) cfg.maxDelay) 0 = min (x.deadline - near s.clock) cfg.maxDelay := by omega
      have hmm' : max 0 (min (x.deadline - near s.clock) cfg.maxDelay) = min (x.deadline - near s.clock) cfg.maxDelay := by omega
      simp only [cyclic, Cyclic.sleepSeen, nap, hd, if_true, sleepFor, tasks, List.map_cons, callLog, hmm, hmm']
    · simp only [hd, Bool.false_eq_true, if_false]
      refine ⟨s, rfl, h, ?_⟩
      simp only [cyclic, Cyclic.sleepSeen, nap, hd, Bool.false_eq_true, if_false]

theorem Ticking.runSeen (hbeh : ∀ y tr e, ∃ d, beh y tr e = .schedule e.id (period e.id) d .done) {N : Int} (hN : N ≤ 2 ^ 40)
    (hper : ∀ id, N / 2 ^ 24 < period id ∧ 0 < period id ∧ period id ≤ 2 ^ 23)
    (hhc : 0 < cfg.handlerCap) (hmax : 0 ≤ cfg.maxDelay) (nest fuel : Nat) (hfuel : cfg.eventsCap ≤ fuel) :
    ∀ (ws : List Nat) (s : ES ω δ H) (q : List (Item ω)), Ticking cfg objs s q → q ≠ [] → (Cyclic.runSeen near period (nap cfg) (s.cyclic q) ws).clock ≤ N →
      ∃ s1 q1, s.run b beh (nest + 1) fuel (polls ws) = .ok s1 ∧ Ticking cfg objs s1 q1 ∧ s1.cyclic q1 = Cyclic.runSeen near period (nap cfg) (s.cyclic q) ws
  | [], s, q, h, _, _ => ⟨s, q, rfl, h, rfl⟩
  | w :: ws, s, q, h, hne, hend => by
    set sw : ES ω δ H := { s with clock := s.clock + w } with hsw
    have hw : Ticking cfg objs sw q := h.wait w
    have hcN : sw.clock ≤ N := (Cyclic.waitSeen_le (see := near) (period := period) (nap := nap cfg) w ws (s.cyclic q)).trans hend
    have hc : sw.clock ≤ 2 ^ 40 := hcN.trans hN
    have hlt : ∀ id, near sw.clock < sw.clock + period id := fun id => by
      have h1 := near_bound sw.clock
      have h2 := hw.inv.clock
      rw [abs_of_nonneg h2, abs_le] at h1
      have := (hper id).1
      omega
    have hlater := Cyclic.serveSeen_later (see := near) (st := sw.cyclic q) hw.sorted hlt
    have hround : Cyclic.roundSeen near period (nap cfg) (s.cyclic q) w = Cyclic.sleepSeen near (nap cfg) (Cyclic.serveSeen near period (sw.cyclic q)) := rfl
    have hend' : (Cyclic.runSeen near period (nap cfg) (Cyclic.roundSeen near period (nap cfg) (s.cyclic q) w) ws).clock ≤ N := hend
    have hlen : ((sw.tasks q).takeWhile fun z => decide (z.deadline ≤ near sw.clock)).length < fuel := by
      have h1 := (List.takeWhile_sublist (l := sw.tasks q) (fun z => decide (z.deadline ≤ near sw.clock))).length_le
      have h2 : (sw.tasks q).length = q.length := by simp [tasks]
      have := hw.room
      omega
    obtain ⟨s1, q1, e1, e2, e3⟩ := Ticking.drainSeen (b := b) hbeh (fun id => (hper id).2) hhc fuel nest _ sw q hw hc hlt rfl fuel hlen
    have e3' : s1.cyclic q1 = Cyclic.serveSeen near period (sw.cyclic q) := e3
    have hclock : s1.clock = sw.clock := congrArg Cyclic.State.clock e3'
    have htasks : s1.tasks q1 = (Cyclic.serveSeen near period (sw.cyclic q)).tasks := congrArg Cyclic.State.tasks e3'
    have hne1 : q1 ≠ [] := by
      rintro rfl
      have h1 : (sw.cyclic q).tasks ≠ [] := by
        simp only [cyclic, tasks]
        exact fun h => hne (List.map_eq_nil_iff.mp h)
      exact Cyclic.serveSeen_nonempty (see := near) (period := period) h1 htasks.symm
    obtain ⟨s2, f1, f2, f3⟩ := e2.sleepSeen (b := b) hne1 (by rw [hclock]; exact hc) (by rw [htasks, hclock]; exact hlater) hmax
    have hcyc : s2.cyclic q1 = Cyclic.roundSeen near period (nap cfg) (s.cyclic q) w := by rw [f3, e3', hround]
    obtain ⟨s3, q3, g1, g2, g3⟩ := Ticking.runSeen hbeh hN hper hhc hmax nest fuel hfuel ws s2 q1 f2 hne1 (by rw [hcyc]; exact hend')
    refine ⟨s3, q3, ?_, g2, by rw [g3, hcyc]; rfl⟩
    have hloop : sw.loop b beh (nest + 1) fuel = .ok s2 := by
      have e1' : sw.drainWith b (trigger b beh fuel (nest + 1) 0) 0 fuel = .ok s1 := e1
      rw [ES.loop, loopWith, e1', res_bind_ok, f1]
    have : s.run b beh (nest + 1) fuel (polls (w :: ws)) = s2.run b beh (nest + 1) fuel (polls ws) := by
      simp only [ES.run, polls, exec, ← hsw, hloop, res_bind_ok]
    rw [this, g1]

end ES
end Spine
