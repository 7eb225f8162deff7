import Verif.Spec.CyclicBusy
import Verif.Proofs.CyclicLate
/-!
# Proofs about periodic tasks that take time
-/

set_option linter.unusedSectionVars false

namespace Spine

variable {ω δ H : Type} [DecidableEq ω] {b : Build}

/-! ### The specification -/

namespace Cyclic

variable {see : Int → Int} {period : Nat → Int} {cost : Nat → Nat} {nap : Option Int} {st : State} {n : Nat}

/-- Nothing appears to be due. -/
def Idle (see : Int → Int) (st : State) : Prop := ∀ z ∈ st.tasks, see st.clock < z.deadline

/-- The next task is called. -/
def next (period : Nat → Int) (cost : Nat → Nat) (st : State) (x : Task) (l : List Task) : State :=
  ⟨st.clock + cost x.id, insert ⟨x.id, st.clock + cost x.id + period x.id⟩ l, st.calls ++ [(x.id, st.clock)]⟩

theorem serveBusy_due {x : Task} {l : List Task} (h : st.tasks = x :: l) (hx : x.deadline ≤ see st.clock) :
    serveBusy see period cost (n + 1) st = serveBusy see period cost n (next period cost st x l) := by
  rw [serveBusy, h]
  simp only [if_pos hx]
  rfl

theorem serveBusy_late {x : Task} {l : List Task} (h : st.tasks = x :: l) (hx : ¬ x.deadline ≤ see st.clock) : ∀ n, serveBusy see period cost n st = st
  | 0 => rfl
  | n + 1 => by
    rw [serveBusy, h]
    simp only [if_neg hx]

theorem serveBusy_none (h : st.tasks = []) : ∀ n, serveBusy see period cost n st = st
  | 0 => rfl
  | n + 1 => by rw [serveBusy, h]

theorem serveBusy_clock : ∀ (n : Nat) (st : State), st.clock ≤ (serveBusy see period cost n st).clock
  | 0, st => le_refl _
  | n + 1, st => by
    match h : st.tasks with
    | [] => rw [serveBusy_none h]
    | x :: l =>
      by_cases hx : x.deadline ≤ see st.clock
      · rw [serveBusy_due h hx]
        refine le_trans ?_ (serveBusy_clock n _)
        simp only [next]; omega
      · rw [serveBusy_late h hx]

theorem next_sorted {x : Task} {l : List Task} (h : st.tasks = x :: l) (hs : Sorted st.tasks) : Sorted (next period cost st x l).tasks := by
  rw [h] at hs
  exact Sorted.insert (List.pairwise_cons.mp hs).2 _

theorem serveBusy_sorted : ∀ (n : Nat) (st : State), Sorted st.tasks → Sorted (serveBusy see period cost n st).tasks
  | 0, st, hs => hs
  | n + 1, st, hs => by
    match h : st.tasks with
    | [] => rw [serveBusy_none h]; exact hs
    | x :: l =>
      by_cases hx : x.deadline ≤ see st.clock
      · rw [serveBusy_due h hx]
        exact serveBusy_sorted n _ (next_sorted h hs)
      · rw [serveBusy_late h hx]; exact hs

theorem next_ids {x : Task} {l : List Task} (h : st.tasks = x :: l) : ((next period cost st x l).tasks.map (·.id)).Perm (st.tasks.map (·.id)) := by
  rw [h]
  exact (insert_perm _ _).map _

theorem serveBusy_ids : ∀ (n : Nat) (st : State), ((serveBusy see period cost n st).tasks.map (·.id)).Perm (st.tasks.map (·.id))
  | 0, st => List.Perm.refl _
  | n + 1, st => by
    match h : st.tasks with
    | [] => rw [serveBusy_none h, h]
    | x :: l =>
      by_cases hx : x.deadline ≤ see st.clock
      · rw [serveBusy_due h hx, ← h]
        exact (serveBusy_ids n _).trans (next_ids h)
      · rw [serveBusy_late h hx, h]

theorem not_due {x : Task} {l : List Task} (h : st.tasks = x :: l) (hs : Sorted st.tasks) (hx : ¬ x.deadline ≤ see st.clock) : Idle see st := by
  intro z hz
  rw [h] at hz hs
  rcases List.mem_cons.mp hz with rfl | hz
  · omega
  · have := (List.pairwise_cons.mp hs).1 z hz
    omega

/-- One summand grows. -/
theorem sum_bump {i : Nat} (f : Nat → Int → Int) (g : Nat → Int) : ∀ {l : List Nat}, l.Nodup → i ∈ l →
    (l.map fun j => f j (if j = i then g j + 1 else g j)).sum = (l.map fun j => f j (g j)).sum + (f i (g i + 1) - f i (g i))
  | [], _, h => by cases h
  | j :: l, hn, h => by
    obtain ⟨hj, hn⟩ := List.nodup_cons.mp hn
    simp only [List.map_cons, List.sum_cons]
    by_cases hji : j = i
    · subst hji
      have : (l.map fun k => f k (if k = j then g k + 1 else g k)) = l.map fun k => f k (g k) := by
        apply List.map_congr_left
        intro k hk
        have hkj : k ≠ j := fun he => hj (he ▸ hk)
        rw [if_neg hkj]
      rw [this, if_pos rfl]; omega
    · have hil : i ∈ l := by
        rcases List.mem_cons.mp h with rfl | h
        · exact absurd rfl hji
        · exact h
      rw [sum_bump f g hn hil, if_neg hji]; omega

theorem sum_le {f g : Nat → Int} : ∀ {l : List Nat}, (∀ i ∈ l, f i ≤ g i) → (l.map f).sum ≤ (l.map g).sum
  | [], _ => le_refl _
  | i :: l, h => by
    simp only [List.map_cons, List.sum_cons]
    have h1 := h i (by simp)
    have h2 := sum_le (f := f) (g := g) (l := l) (fun j hj => h j (by simp [hj]))
    omega

theorem sum_nonneg {f : Nat → Int} {l : List Nat} (h : ∀ i ∈ l, 0 ≤ f i) : 0 ≤ (l.map f).sum := by
  have := sum_le (f := fun _ => 0) (g := f) h
  simpa using this

theorem le_sum {f : Nat → Int} {i : Nat} : ∀ {l : List Nat}, (∀ j ∈ l, 0 ≤ f j) → i ∈ l → f i ≤ (l.map f).sum
  | [], _, h => by cases h
  | j :: l, h, hi => by
    simp only [List.map_cons, List.sum_cons]
    have h0 := h j (by simp)
    have h1 := sum_nonneg (f := f) (l := l) (fun k hk => h k (by simp [hk]))
    rcases List.mem_cons.mp hi with rfl | hi
    · omega
    · have := le_sum (f := f) (fun k hk => h k (by simp [hk])) hi
      omega

/-- Calling the tasks that are due comes to an end. -/
theorem serveBusy_ends {ids : List Nat} (hnd : ids.Nodup) {t0 B σ N : Int} (h0 : 0 ≤ t0) (hsee : ∀ c, 0 ≤ c → c ≤ N → abs (see c - c) ≤ σ)
    (hper : ∀ id, σ < period id) (hB : Fits period cost σ B ids) :
    ∀ (fuel : Nat) (st : State) (g : Nat → Int), (ids.map fun i => B / (cost i + period i - σ) + 1 - g i).sum ≤ fuel → Sorted st.tasks →
      (st.tasks.map (·.id)).Perm ids → t0 ≤ st.clock → st.clock = t0 + (ids.map fun i => (cost i : Int) * g i).sum →
      (∀ z ∈ st.tasks, g z.id = 0 ∨ t0 + g z.id * (cost z.id + period z.id - σ) + σ ≤ z.deadline) →
      (∀ i ∈ ids, g i ≤ B / (cost i + period i - σ) + 1) → (serveBusy see period cost fuel st).clock ≤ N →
      Idle see (serveBusy see period cost fuel st) ∧ (serveBusy see period cost fuel st).clock ≤ t0 + B := by
  intro fuel
  induction fuel with
  | zero =>
    intro st g hm hs hperm ht0 hclock hg hle hN
    have hb : st.clock ≤ t0 + B := by
      have := sum_le (l := ids) (f := fun i => (cost i : Int) * g i) (g := fun i => (cost i : Int) * (B / (cost i + period i - σ) + 1))
        (fun i hi => mul_le_mul_of_nonneg_left (hle i hi) (by omega))
      have := this.trans hB
      omega
    refine ⟨fun z hz => ?_, hb⟩
    by_contra hdue
    have hdue : z.deadline ≤ see st.clock := not_lt.mp hdue
    have hse := abs_le.mp (hsee st.clock (by omega) hN)
    have hp : 0 < (cost z.id : Int) + period z.id - σ := by have := hper z.id; omega
    have hzi : z.id ∈ ids := hperm.mem_iff.mp (List.mem_map_of_mem hz)
    have hgz : g z.id ≤ B / (cost z.id + period z.id - σ) := by
      rw [Int.le_ediv_iff_mul_le hp]
      rcases hg z hz with h | h
      · rw [h]; omega
      · omega
    have := le_sum (f := fun i => B / (cost i + period i - σ) + 1 - g i) (l := ids) (fun j hj => by have := hle j hj; omega) hzi
    have hm' : (ids.map fun i => B / (cost i + period i - σ) + 1 - g i).sum ≤ 0 := by simpa using hm
    omega
  | succ fuel ih =>
    intro st g hm hs hperm ht0 hclock hg hle hN
    have hb : st.clock ≤ t0 + B := by
      have := sum_le (l := ids) (f := fun i => (cost i : Int) * g i) (g := fun i => (cost i : Int) * (B / (cost i + period i - σ) + 1))
        (fun i hi => mul_le_mul_of_nonneg_left (hle i hi) (by omega))
      have := this.trans hB
      omega
    match h : st.tasks with
    | [] =>
      rw [serveBusy_none h]
      exact ⟨fun z hz => absurd hz (by rw [h]; simp), hb⟩
    | x :: l =>
      by_cases hx : x.deadline ≤ see st.clock
      · have hcN := (serveBusy_clock (see := see) (period := period) (cost := cost) (fuel + 1) st).trans hN
        have hse := abs_le.mp (hsee st.clock (by omega) hcN)
        have hp : 0 < (cost x.id : Int) + period x.id - σ := by have := hper x.id; omega
        have hxm : x ∈ st.tasks := by rw [h]; simp
        have hxi : x.id ∈ ids := hperm.mem_iff.mp (List.mem_map_of_mem hxm)
        have hmul : g x.id * (cost x.id + period x.id - σ) ≤ st.clock - t0 := by
          rcases hg x hxm with h | h
          · rw [h]; omega
          · omega
        have hgx : g x.id ≤ B / (cost x.id + period x.id - σ) := by
          rw [Int.le_ediv_iff_mul_le hp]; omega
        rw [serveBusy_due h hx] at hN ⊢
        have hnd' : (st.tasks.map (·.id)).Nodup := hperm.nodup_iff.mpr hnd
        rw [h, List.map_cons] at hnd'
        obtain ⟨hxl, _⟩ := List.nodup_cons.mp hnd'
        refine ih (next period cost st x l) (fun j => if j = x.id then g j + 1 else g j) ?_ (next_sorted h hs) ((next_ids h).trans hperm) ?_ ?_ ?_ ?_ hN
        · rw [sum_bump (fun i v => B / (cost i + period i - σ) + 1 - v) g hnd hxi]
          push_cast at hm ⊢
          omega
        · simp only [next]; omega
        · rw [sum_bump (fun i v => (cost i : Int) * v) g hnd hxi]
          simp only [next, hclock, mul_add, mul_one]; omega
        · intro z hz
          rcases List.mem_cons.mp ((insert_perm _ _).mem_iff.mp hz) with rfl | hz
          · right
            simp only [if_true]
            rw [add_mul, one_mul]
            omega
          · have hne : z.id ≠ x.id := fun he => hxl (he ▸ List.mem_map_of_mem hz)
            simp only [if_neg hne]
            exact hg z (by rw [h]; simp [hz])
        · intro i hi
          by_cases hix : i = x.id
          · subst hix; simp only [if_true]; omega
          · simp only [if_neg hix]; exact hle i hi
      · rw [serveBusy_late h hx]
        exact ⟨not_due h hs hx, hb⟩

theorem PacedSeen.append {T L σ e e' : Int} : ∀ {cs cs' : List Int} {d : Int}, PacedSeen T L σ d cs e → PacedSeen T L σ e cs' e' → PacedSeen T L σ d (cs ++ cs') e'
  | [], _, _, h, h' => by cases h; exact h'
  | _ :: _, _, _, h, h' => ⟨h.1, h.2.1, h.2.2.append h'⟩

theorem filter_insert {x : Task} {l : List Task} {id : Nat} {y : Task} (h : (x :: l).filter (fun z => decide (z.id = id)) = [y]) :
    (insert x l).filter (fun z => decide (z.id = id)) = [y] := by
  have := (insert_perm x l).filter (fun z => decide (z.id = id))
  rw [h] at this
  exact List.perm_singleton.mp this

/-- The calls of one task while the tasks that are due are called. -/
theorem serveBusy_paced {id : Nat} {σ N lo K : Int} (hsee : ∀ c, 0 ≤ c → c ≤ N → abs (see c - c) ≤ σ) (hper : ∀ id, 0 < period id) :
    ∀ (fuel : Nat) (st : State) (D : Int), st.tasks.filter (fun z => decide (z.id = id)) = [⟨id, D⟩] → 0 ≤ st.clock → lo ≤ st.clock → lo ≤ D →
      (serveBusy see period cost fuel st).clock ≤ N → (serveBusy see period cost fuel st).clock ≤ lo + K + σ →
      ∃ cs e, (serveBusy see period cost fuel st).tasks.filter (fun z => decide (z.id = id)) = [⟨id, e⟩] ∧
        callsOf id (serveBusy see period cost fuel st).calls = callsOf id st.calls ++ cs ∧ PacedSeen (cost id + period id) K σ D cs e := by
  intro fuel
  induction fuel with
  | zero => intro st D hD _ _ _ _ _; exact ⟨[], D, hD, by simp [serveBusy], rfl⟩
  | succ fuel ih =>
    intro st D hD h0 hlo hloD hN hK
    match h : st.tasks with
    | [] => rw [h] at hD; cases hD
    | x :: l =>
      by_cases hx : x.deadline ≤ see st.clock
      · have hc := serveBusy_clock (see := see) (period := period) (cost := cost) (fuel + 1) st
        have hse := abs_le.mp (hsee st.clock h0 (hc.trans hN))
        rw [serveBusy_due h hx] at hN hK hc ⊢
        rw [h] at hD
        have hcl : (next period cost st x l).clock = st.clock + cost x.id := rfl
        by_cases hxi : x.id = id
        · rw [List.filter_cons, if_pos (by simpa using hxi)] at hD
          obtain ⟨hxD, hl⟩ := List.cons_eq_cons.mp hD
          have hxD' : x.deadline = D := by rw [hxD]
          have hf : (next period cost st x l).tasks.filter (fun z => decide (z.id = id)) = [⟨id, st.clock + cost id + period id⟩] := by
            refine filter_insert ?_
            rw [List.filter_cons, if_pos (by simpa using hxi), hl, hxi]
          have hpi := hper id
          obtain ⟨cs, e, k1, k2, k3⟩ := ih (next period cost st x l) _ hf (by rw [hcl]; omega) (by rw [hcl]; omega) (by omega) hN hK
          refine ⟨st.clock :: cs, e, k1, ?_, by omega, by omega, ?_⟩
          · rw [k2]
            simp only [next, callsOf_append, List.append_assoc]
            simp [callsOf, hxi]
          · rw [← add_assoc]; exact k3
        · rw [List.filter_cons, if_neg (by simpa using hxi)] at hD
          have hf : (next period cost st x l).tasks.filter (fun z => decide (z.id = id)) = [⟨id, D⟩] := by
            refine filter_insert ?_
            rw [List.filter_cons, if_neg (by simpa using hxi), hD]
          obtain ⟨cs, e, k1, k2, k3⟩ := ih (next period cost st x l) D hf (by rw [hcl]; omega) (by rw [hcl]; omega) hloD hN hK
          refine ⟨cs, e, k1, ?_, k3⟩
          rw [k2]
          simp only [next, callsOf_append]
          simp [callsOf, hxi]
      · rw [serveBusy_late h hx]
        exact ⟨[], D, hD, by simp, rfl⟩

theorem roundBusy_clock (w : Nat) : st.clock + w ≤ (serveBusy see period cost n { st with clock := st.clock + w }).clock ∧
    (serveBusy see period cost n { st with clock := st.clock + w }).clock ≤ (roundBusy see period cost nap n st w).clock := by
  refine ⟨serveBusy_clock n { st with clock := st.clock + w }, ?_⟩
  unfold roundBusy sleepSeen
  split
  · simp only; omega
  · exact le_refl _

theorem runBusy_clock : ∀ (ws : List Nat) (st : State), st.clock ≤ (runBusy see period cost nap n st ws).clock
  | [], st => le_refl _
  | w :: ws, st => by
    have h1 := roundBusy_clock (see := see) (period := period) (cost := cost) (nap := nap) (n := n) (st := st) w
    have h2 := runBusy_clock ws (roundBusy see period cost nap n st w)
    show st.clock ≤ (runBusy see period cost nap n (roundBusy see period cost nap n st w) ws).clock
    omega

/-- What one round does. -/
theorem roundBusy_spec {ids : List Nat} (hnd : ids.Nodup) {B σ N : Int} (hsee : ∀ c, 0 ≤ c → c ≤ N → abs (see c - c) ≤ σ) (hσ : 0 ≤ σ)
    (hper : ∀ id, σ < period id) (hB : Fits period cost σ B ids) (hB0 : 0 ≤ B) (hn : mostCalls period cost σ B ids ≤ n) (hnap : ∀ most, nap = some most → 0 ≤ most)
    (hs : Sorted st.tasks) (hids : (st.tasks.map (·.id)).Perm ids) (h0 : 0 ≤ st.clock) (w : Nat)
    (hN : (serveBusy see period cost n { st with clock := st.clock + w }).clock ≤ N) :
    Idle see (serveBusy see period cost n { st with clock := st.clock + w }) ∧
    (serveBusy see period cost n { st with clock := st.clock + w }).clock ≤ st.clock + w + B ∧
    Sorted (roundBusy see period cost nap n st w).tasks ∧ ((roundBusy see period cost nap n st w).tasks.map (·.id)).Perm ids ∧
    ∀ id L D, st.tasks.filter (fun z => decide (z.id = id)) = [⟨id, D⟩] → st.clock ≤ D + σ → (w : Int) ≤ L →
      ∃ cs e, (roundBusy see period cost nap n st w).tasks.filter (fun z => decide (z.id = id)) = [⟨id, e⟩] ∧
        callsOf id (roundBusy see period cost nap n st w).calls = callsOf id st.calls ++ cs ∧ PacedSeen (cost id + period id) (L + B) σ D cs e ∧
        (roundBusy see period cost nap n st w).clock ≤ e + σ := by
  have hp : ∀ i, 0 < (cost i : Int) + period i - σ := fun i => by have := hper i; omega
  have hends := serveBusy_ends (see := see) (period := period) (cost := cost) (t0 := st.clock + w) (B := B) (N := N) hnd (by omega) hsee hper hB n
    { st with clock := st.clock + w } (fun _ => 0) (by simpa [mostCalls] using hn) hs hids (le_refl _) (by simp) (fun z _ => .inl rfl)
    (fun i _ => by have := Int.ediv_nonneg hB0 (hp i).le; omega) hN
  have hsv : Sorted (serveBusy see period cost n { st with clock := st.clock + w }).tasks := serveBusy_sorted n _ hs
  have hmono : st.clock + w ≤ (serveBusy see period cost n { st with clock := st.clock + w }).clock := serveBusy_clock n { st with clock := st.clock + w }
  have hse := abs_le.mp (hsee _ (by omega) hN)
  obtain ⟨g1, g2, g3, g4⟩ := sleepSeen_spec (see := see) (nap := nap) (σ := σ) hsv hends.1 (by omega) hnap
  refine ⟨hends.1, hends.2, ?_, ?_, fun id L D hD hc hL => ?_⟩
  · unfold roundBusy; rw [g1]; exact hsv
  · unfold roundBusy; rw [g1]; exact (serveBusy_ids n _).trans hids
  · obtain ⟨cs, e, k1, k2, k3⟩ := serveBusy_paced (see := see) (cost := cost) (id := id) (lo := st.clock - σ) (K := L + B) hsee
      (fun id => hσ.trans_lt (hper id)) n { st with clock := st.clock + w } D hD (by simp only; omega) (by simp only; omega) (by omega) hN (by have := hends.2; omega)
    refine ⟨cs, e, ?_, ?_, k3, ?_⟩
    · unfold roundBusy; rw [g1]; exact k1
    · unfold roundBusy; rw [g2]; exact k2
    · refine g4 ⟨id, e⟩ ?_
      have : (⟨id, e⟩ : Task) ∈ (serveBusy see period cost n { st with clock := st.clock + w }).tasks.filter (fun z => decide (z.id = id)) := by rw [k1]; simp
      exact (List.mem_filter.mp this).1

/-- A task is called at its pace. -/
theorem runBusy_paced {ids : List Nat} (hnd : ids.Nodup) {B σ N L : Int} (hsee : ∀ c, 0 ≤ c → c ≤ N → abs (see c - c) ≤ σ) (hσ : 0 ≤ σ)
    (hper : ∀ id, σ < period id) (hB : Fits period cost σ B ids) (hB0 : 0 ≤ B) (hn : mostCalls period cost σ B ids ≤ n) (hnap : ∀ most, nap = some most → 0 ≤ most) (id : Nat) :
    ∀ (ws : List Nat) (st : State) (D : Int), Sorted st.tasks → (st.tasks.map (·.id)).Perm ids → 0 ≤ st.clock →
      st.tasks.filter (fun z => decide (z.id = id)) = [⟨id, D⟩] → st.clock ≤ D + σ →
      (∀ w ∈ ws, (w : Int) ≤ L) → (runBusy see period cost nap n st ws).clock ≤ N →
      ∃ cs e, callsOf id (runBusy see period cost nap n st ws).calls = callsOf id st.calls ++ cs ∧ PacedSeen (cost id + period id) (L + B) σ D cs e ∧
        (runBusy see period cost nap n st ws).clock ≤ e + σ
  | [], st, D, _, _, _, _, hc, _, _ => ⟨[], D, by simp [runBusy], rfl, hc⟩
  | w :: ws, st, D, hs, hids, h0, hD, hc, hw, hN => by
    have hN' : (runBusy see period cost nap n (roundBusy see period cost nap n st w) ws).clock ≤ N := hN
    have h1 := roundBusy_clock (see := see) (period := period) (cost := cost) (nap := nap) (n := n) (st := st) w
    have h2 := (runBusy_clock ws (roundBusy see period cost nap n st w)).trans hN'
    obtain ⟨_, _, r1, r2, r3⟩ := roundBusy_spec (nap := nap) hnd hsee hσ hper hB hB0 hn hnap hs hids h0 w (by omega)
    obtain ⟨cs, e, k1, k2, k3, k4⟩ := r3 id L D hD hc (hw w (by simp))
    obtain ⟨cs', e', j1, j2, j3⟩ := runBusy_paced hnd hsee hσ hper hB hB0 hn hnap id ws (roundBusy see period cost nap n st w) e r1 r2 (by omega) k1 k4
      (fun w' hw' => hw w' (by simp [hw'])) hN'
    refine ⟨cs ++ cs', e', ?_, k3.append j2, j3⟩
    show callsOf id (runBusy see period cost nap n (roundBusy see period cost nap n st w) ws).calls = _
    rw [j1, k2, List.append_assoc]

end Cyclic

/-! ### The event system follows the specification -/

namespace ES

variable {beh : Behaviour ω δ H} {cfg : Config} {objs : List ω} {s s' : ES ω δ H} {q : List (Item ω)} {period : Nat → Int} {cost : Nat → Nat}

/-- One event is delivered; its handler takes time. -/
theorem Ticking.work {x : Item ω} (h : Ticking cfg objs s (x :: q)) (hbeh : ∀ y tr e, ∃ d, beh y tr e = .wait (cost e.id) (.schedule e.id (period e.id) d .done))
    (hper : ∀ id, 0 < period id ∧ period id ≤ 2 ^ 23) (hhc : 0 < cfg.handlerCap) (hc40 : s.clock + cost (s.pipe.heap x.obj).id ≤ 2 ^ 40) (hx : x.deadline ≤ near s.clock) :
    ∃ s1 q1, Ticking cfg objs s1 q1 ∧ s1.clock = s.clock + cost (s.pipe.heap x.obj).id ∧
      s1.tasks q1 = Cyclic.insert ⟨(s.pipe.heap x.obj).id, s.clock + cost (s.pipe.heap x.obj).id + period (s.pipe.heap x.obj).id⟩ (s.tasks q) ∧
      callLog s1.trace = ((s.pipe.heap x.obj).id, s.clock) :: callLog s.trace ∧
      ∀ rounds nest fuel, s.drain b beh rounds (nest + 1) (fuel + 1) = s1.drain b beh rounds (nest + 1) fuel := by
  obtain ⟨p', e1, e2, e3⟩ := ES.drain_due (b := b) (beh := beh) h.inv (by omega) hx
  set s1 : ES ω δ H := { s.hold x.obj with pipe := p', trace := .fired (p'.heap x.obj) s.clock 0 :: s.trace } with hs1
  set e := p'.heap x.obj with he
  have hids : ∀ o, (p'.heap o).id = (s.pipe.heap o).id := fun o => by obtain ⟨f, hf⟩ := e1 o; rw [hf]
  have heid : e.id = (s.pipe.heap x.obj).id := hids x.obj
  obtain ⟨hid, h0, hatt⟩ := h.ready x (by simp)
  have hlt : e.id < s1.map.length := by rw [heid]; exact h.map.length.trans (by rw [h.conf]) ▸ hid
  obtain ⟨post, log, hmk, hl⟩ := h.map.slot e.id s1.map[e.id] (List.getElem?_eq_getElem hlt)
  have hq : (attached s.trace e.id).take s.cfg.handlerCap = [some h0] := by
    rw [heid, hatt, h.conf]; exact List.take_of_length_le (by simp; omega)
  rw [hq] at hmk hl
  have hsz : (s1.map[e.id]).size = 1 := by
    rw [hmk, Vec.size_mk' (by have := h.map.small; simp only [Vec.Fits, List.length_nil]; omega)]; rfl
  have hemp : (s1.map[e.id]).empty = false := by unfold Vec.empty; rw [hsz]; rfl
  have hhd : (s1.map[e.id]).head = 0 := by rw [hmk]; rfl
  have hst : (s1.map[e.id]).store[0]? = some (some h0) := by rw [hmk]; rfl
  set s2 : ES ω δ H := { s1 with trace := .called h0 e 0 s1.clock :: s1.trace, clock := s1.clock + cost e.id } with hs2
  have hi2' := e2.called h0 e 0 s1.clock
  have hle : s1.clock ≤ s1.clock + cost e.id := by omega
  have hi2 : Inv objs s2 q := { hi2' with pipe := hi2'.pipe.later hle, clock := hi2'.clock.trans hle }
  have hc2 : s2.clock = s.clock + cost (s.pipe.heap x.obj).id := by rw [← heid]; rfl
  have hroom := h.room
  rw [List.length_cons] at hroom
  have hfree := hi2.free (by
    simp only [hs2, hs1, ES.hold, h.locals, h.conf, h.out, List.length_nil, List.length_cons]; omega)
  obtain ⟨d0, hd0⟩ := hbeh h0 s1.trace e
  obtain ⟨o, s3, v', e4, e5, e6, e7⟩ := ES.schedule_spec (b := b) (id := e.id) (delay := period e.id) (data := d0) hi2 (by rw [hc2]; exact hc40) (hper _).1 (hper _).2 hfree
  have hF := fetch_grows e4
  have ho : o ∉ q.map (·.obj) := by
    intro hm
    have := ((fetch_inv hi2 e4).2 o rfl).2
    simp only [owners, if_pos hm] at this; omega
  have htr : ∀ rounds nest, trigger b beh rounds (nest + 1) 0 s1 e = .ok (s3.queued o v') := by
    intro rounds nest
    rw [trigger]
    simp only [hlt, decide_true, spnAssert_true, res_bind_ok, rd, List.getElem?_eq_getElem hlt, hemp, Bool.not_false, hsz, hhd]
    simp only [visit, rd, List.getElem?_eq_getElem hlt, hst, handle, deref, res_bind_ok, hd0, exec, ← hs2, e5]
  -- ids of the pending events
  have hheap : ∀ y ∈ q, (((s3.queued o v').unhold x.obj).pipe.heap y.obj).id = (s.pipe.heap y.obj).id := by
    intro y hy
    have hne : y.obj ≠ o := fun hh => ho (hh ▸ List.mem_map_of_mem hy)
    simp only [ES.unhold, queued, hne, if_false, hF.heap, Pipe.store]
    exact hids y.obj
  have hnew : (((s3.queued o v').unhold x.obj).pipe.heap o).id = e.id := by
    simp only [ES.unhold, queued, if_true, hF.heap, Pipe.store]
  have hattd : ∀ id, attached ((s3.queued o v').unhold x.obj).trace id = attached s.trace id := by
    intro id; simp only [ES.unhold, queued, hF.trace]; rfl
  refine ⟨(s3.queued o v').unhold x.obj, Agenda.insert ⟨o, s2.clock + period e.id, s2.count⟩ q, ⟨e7.unhold x.obj, ?_, ?_, ?_, ?_, ?_, ?_⟩, ?_, ?_, ?_, fun rounds nest fuel => ?_⟩
  · simp only [ES.unhold, queued, hF.cfg]; exact h.conf
  · simp only [ES.unhold, queued, hF.locals]
    show (x.obj :: s.locals).erase x.obj = []
    rw [h.locals]; simp
  · simp only [ES.unhold, queued, hF.store]; exact h.out
  · exact h.map.same (by simp only [ES.unhold, queued, hF.map]; rfl) (by simp only [ES.unhold, queued, hF.cfg]; rfl) hattd
  · rw [(Pipe.insert_perm _ _).length_eq, List.length_cons]; exact hroom
  · intro y hy
    rcases Pipe.mem_insert.mp hy with rfl | hy
    · rw [hnew, heid]; exact ⟨hid, h0, (hattd _).trans hatt⟩
    · rw [hheap y hy, hattd]; exact h.ready y (by simp [hy])
  · simp only [ES.unhold, queued, hF.clock]; exact hc2
  · rw [tasks_insert, hnew, heid, hc2]
    congr 1
    simp only [tasks]
    apply List.map_congr_left
    intro y hy
    rw [hheap y hy]
  · simp only [ES.unhold, queued, hF.trace]
    show (e.id, s.clock) :: callLog s.trace = _
    rw [heid]
  · rw [e3, htr, res_bind_ok]

/-- Nothing is due: the loop ends. -/
theorem Ticking.idle (h : Ticking cfg objs s q) (hc : s.clock ≤ 2 ^ 40) (hi : Cyclic.Idle near (s.cyclic q)) (rounds nest fuel : Nat) :
    ∃ s1, s.drain b beh rounds (nest + 1) (fuel + 1) = .ok s1 ∧ Ticking cfg objs s1 q ∧ s1.cyclic q = s.cyclic q := by
  obtain ⟨heap', e1, e2, e3⟩ := Pipe.containsExpired_spec (b := b) h.inv.pipe h.inv.clock hc
  have hfalse : q.head?.any (fun x => decide (x.deadline ≤ near s.clock)) = false := by
    cases q with
    | nil => rfl
    | cons y q =>
      have : near s.clock < y.deadline := hi ⟨(s.pipe.heap y.obj).id, y.deadline⟩ (by simp [cyclic, tasks])
      simpa using this
  rw [hfalse] at e1
  have hids : ∀ o, (heap' o).id = (s.pipe.heap o).id := fun o => by obtain ⟨f, hf⟩ := e2 o; rw [hf]
  refine ⟨{ s with pipe := { s.pipe with heap := heap' } }, ?_, ?_, ?_⟩
  · rw [ES.drain, drainWith, e1]; rfl
  · refine ⟨h.inv.same e2 e3, h.conf, h.locals, h.out, h.map.same rfl rfl (fun _ => rfl), h.room, fun y hy => ?_⟩
    have := h.ready y hy
    simp only [hids]; exact this
  · simp only [cyclic, tasks, hids]

/-- The loop calls the tasks that are due, one after the other, until none is. -/
theorem Ticking.drainBusy (hbeh : ∀ y tr e, ∃ d, beh y tr e = .wait (cost e.id) (.schedule e.id (period e.id) d .done))
    (hper : ∀ id, 0 < period id ∧ period id ≤ 2 ^ 23) (hhc : 0 < cfg.handlerCap) (rounds nest : Nat) :
    ∀ (n : Nat) (s : ES ω δ H) (q : List (Item ω)), Ticking cfg objs s q → (Cyclic.serveBusy near period cost n (s.cyclic q)).clock ≤ 2 ^ 40 →
      Cyclic.Idle near (Cyclic.serveBusy near period cost n (s.cyclic q)) → ∀ fuel, n < fuel →
      ∃ s1 q1, s.drain b beh rounds (nest + 1) fuel = .ok s1 ∧ Ticking cfg objs s1 q1 ∧ s1.cyclic q1 = Cyclic.serveBusy near period cost n (s.cyclic q) := by
  intro n
  induction n with
  | zero =>
    intro s q h hc hi fuel hf
    obtain ⟨fuel, rfl⟩ : ∃ k, fuel = k + 1 := ⟨fuel - 1, by omega⟩
    obtain ⟨s1, h1, h2, h3⟩ := h.idle (b := b) (beh := beh) hc hi rounds nest fuel
    exact ⟨s1, q, h1, h2, h3⟩
  | succ n ih =>
    intro s q h hc hi fuel hf
    obtain ⟨fuel, rfl⟩ : ∃ k, fuel = k + 1 := ⟨fuel - 1, by omega⟩
    cases q with
    | nil =>
      have ht : (s.cyclic []).tasks = [] := rfl
      rw [Cyclic.serveBusy_none ht] at hc hi ⊢
      obtain ⟨s1, h1, h2, h3⟩ := h.idle (b := b) (beh := beh) hc hi rounds nest fuel
      exact ⟨s1, [], h1, h2, h3⟩
    | cons x q =>
      have ht : (s.cyclic (x :: q)).tasks = ⟨(s.pipe.heap x.obj).id, x.deadline⟩ :: s.tasks q := rfl
      by_cases hx : x.deadline ≤ near s.clock
      · rw [Cyclic.serveBusy_due ht hx] at hc hi ⊢
        have hstep : s.clock + cost (s.pipe.heap x.obj).id ≤ 2 ^ 40 := le_trans (Cyclic.serveBusy_clock n _) hc
        obtain ⟨s1, q1, h1, h2, h3, h4, h5⟩ := h.work (b := b) hbeh hper hhc hstep hx
        have hcyc : s1.cyclic q1 = Cyclic.next period cost (s.cyclic (x :: q)) ⟨(s.pipe.heap x.obj).id, x.deadline⟩ (s.tasks q) := by
          simp only [cyclic, Cyclic.next, h2, h3, h4, List.reverse_cons]
        obtain ⟨s2, q2, h6, h7, h8⟩ := ih s1 q1 h1 (by rw [hcyc]; exact hc) (by rw [hcyc]; exact hi) fuel (by omega)
        exact ⟨s2, q2, by rw [h5]; exact h6, h7, by rw [h8, hcyc]⟩
      · rw [Cyclic.serveBusy_late ht hx] at hc hi ⊢
        obtain ⟨s1, h1, h2, h3⟩ := h.idle (b := b) (beh := beh) hc hi rounds nest fuel
        exact ⟨s1, x :: q, h1, h2, h3⟩

theorem Ticking.runBusy (hbeh : ∀ y tr e, ∃ d, beh y tr e = .wait (cost e.id) (.schedule e.id (period e.id) d .done)) {N B : Int} (hN : N ≤ 2 ^ 40) (hN0 : 0 ≤ N)
    (hper : ∀ id, N / 2 ^ 24 < period id ∧ period id ≤ 2 ^ 23) {ids : List Nat} (hnd : ids.Nodup) (hB : Cyclic.Fits period cost (N / 2 ^ 24) B ids) (hB0 : 0 ≤ B)
    (hhc : 0 < cfg.handlerCap) (hmax : 0 ≤ cfg.maxDelay) (nest fuel n : Nat) (hn : Cyclic.mostCalls period cost (N / 2 ^ 24) B ids ≤ n) (hfuel : n < fuel) :
    ∀ (ws : List Nat) (s : ES ω δ H) (q : List (Item ω)), Ticking cfg objs s q → q ≠ [] → ((s.tasks q).map (·.id)).Perm ids →
      (Cyclic.runBusy near period cost (nap cfg) n (s.cyclic q) ws).clock ≤ N →
      ∃ s1 q1, s.run b beh (nest + 1) fuel (polls ws) = .ok s1 ∧ Ticking cfg objs s1 q1 ∧ s1.cyclic q1 = Cyclic.runBusy near period cost (nap cfg) n (s.cyclic q) ws
  | [], s, q, h, _, _, _ => ⟨s, q, rfl, h, rfl⟩
  | w :: ws, s, q, h, hne, hids, hend => by
    have hnap : ∀ most, nap cfg = some most → 0 ≤ most := by
      intro most hm
      unfold nap at hm
      split at hm
      · cases hm; exact hmax
      · cases hm
    have hσ : 0 ≤ N / 2 ^ 24 := by omega
    have hsee : ∀ c, 0 ≤ c → c ≤ N → abs (near c - c) ≤ N / 2 ^ 24 := fun c h0 hc => by
      have := near_bound c
      rw [abs_of_nonneg h0] at this
      omega
    set sw : ES ω δ H := { s with clock := s.clock + w } with hsw
    have hw : Ticking cfg objs sw q := h.wait w
    have hend' : (Cyclic.runBusy near period cost (nap cfg) n (Cyclic.roundBusy near period cost (nap cfg) n (s.cyclic q) w) ws).clock ≤ N := hend
    have hround : Cyclic.roundBusy near period cost (nap cfg) n (s.cyclic q) w = Cyclic.sleepSeen near (nap cfg) (Cyclic.serveBusy near period cost n (sw.cyclic q)) := rfl
    have hmono := (Cyclic.runBusy_clock ws (Cyclic.roundBusy near period cost (nap cfg) n (s.cyclic q) w)).trans hend'
    have hrc := Cyclic.roundBusy_clock (see := near) (period := period) (cost := cost) (nap := nap cfg) (n := n) (st := s.cyclic q) w
    have hsN : (Cyclic.serveBusy near period cost n (sw.cyclic q)).clock ≤ N := hrc.2.trans hmono
    obtain ⟨r1, r2, r3, r4, _⟩ := Cyclic.roundBusy_spec (st := s.cyclic q) (nap := nap cfg) hnd hsee hσ (fun id => (hper id).1) hB hB0 hn hnap h.sorted hids h.inv.clock w hsN
    obtain ⟨s1, q1, e1, e2, e3⟩ := Ticking.drainBusy (b := b) hbeh (fun id => ⟨hσ.trans_lt (hper id).1, (hper id).2⟩) hhc fuel nest n sw q hw (hsN.trans hN) r1 fuel hfuel
    have hclock : s1.clock = (Cyclic.serveBusy near period cost n (sw.cyclic q)).clock := congrArg Cyclic.State.clock e3
    have htasks : s1.tasks q1 = (Cyclic.serveBusy near period cost n (sw.cyclic q)).tasks := congrArg Cyclic.State.tasks e3
    have hids1 : ((s1.tasks q1).map (·.id)).Perm ids := by
      rw [htasks]
      exact (Cyclic.serveBusy_ids n (sw.cyclic q)).trans hids
    have hne1 : q1 ≠ [] := by
      rintro rfl
      have h1 := hids1.trans hids.symm
      have h2 := h1.length_eq
      simp only [tasks, List.map_nil, List.length_nil, List.length_map] at h2
      exact hne (List.length_eq_zero_iff.mp h2.symm)
    obtain ⟨s2, f1, f2, f3⟩ := e2.sleepSeen (b := b) hne1 (by rw [hclock]; exact hsN.trans hN) (by rw [htasks, hclock]; exact r1) hmax
    have hcyc : s2.cyclic q1 = Cyclic.roundBusy near period cost (nap cfg) n (s.cyclic q) w := by rw [f3, e3, hround]
    obtain ⟨s3, q3, g1, g2, g3⟩ := Ticking.runBusy hbeh hN hN0 hper hnd hB hB0 hhc hmax nest fuel n hn hfuel ws s2 q1 f2 hne1
      (by
        have : s2.tasks q1 = (Cyclic.roundBusy near period cost (nap cfg) n (s.cyclic q) w).tasks := congrArg Cyclic.State.tasks hcyc
        rw [this]; exact r4)
      (by rw [hcyc]; exact hend')
    refine ⟨s3, q3, ?_, g2, by rw [g3, hcyc]; rfl⟩
    have hloop : sw.loop b beh (nest + 1) fuel = .ok s2 := by
      have e1' : sw.drainWith b (trigger b beh fuel (nest + 1) 0) 0 fuel = .ok s1 := e1
      rw [ES.loop, loopWith, e1', res_bind_ok, f1]
    have : s.run b beh (nest + 1) fuel (polls (w :: ws)) = s2.run b beh (nest + 1) fuel (polls ws) := by
      simp only [ES.run, polls, exec, ← hsw, hloop, res_bind_ok]
    rw [this, g1]

end ES
end Spine
