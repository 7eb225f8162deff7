import Verif.Props.Pid
import Verif.Props.Undo
import Verif.Model.Interrupt
import Verif.Core.Bind
/-!
# C201: settings of different things can be made in any order
-/

namespace Spine

namespace Pid

section
variable {F : Type} [Arith F]

/-- Specification: what a setting is about. -/
inductive Thing
  | input | setpoint | gains | direction | sampling | limits
  deriving DecidableEq

/-- Specification: what an operation sets; `none` for those that compute. -/
def Op.thing : Op F → Option Thing
  | .input _ => some .input
  | .setpoint _ => some .setpoint
  | .tunings .. => some .gains
  | .direction _ => some .direction
  | .sampling _ => some .sampling
  | .limits .. => some .limits
  | .update _ => none
  | .start => none

/-- Specification: two settings of different things, which are not the gains and the sampling time. -/
def Op.Apart (p q : Op F) : Prop :=
  ∃ x y, p.thing = some x ∧ q.thing = some y ∧ x ≠ y ∧ ({x, y} : Set Thing) ≠ {.gains, .sampling}

/-- Specification: moreover, if one is the direction then the other is neither the gains nor the sampling time. -/
def Op.FarApart (p q : Op F) : Prop :=
  ∃ x y, p.thing = some x ∧ q.thing = some y ∧ x ≠ y ∧ ({x, y} : Set Thing) ≠ {.gains, .sampling} ∧ ({x, y} : Set Thing) ≠ {.gains, .direction} ∧
    ({x, y} : Set Thing) ≠ {.direction, .sampling}

theorem Op.Apart.symm {p q : Op F} (h : p.Apart q) : q.Apart p := by
  obtain ⟨x, y, h1, h2, h3, h4⟩ := h
  exact ⟨y, x, h2, h1, Ne.symm h3, by rwa [Set.pair_comm]⟩

theorem Op.FarApart.symm {p q : Op F} (h : p.FarApart q) : q.FarApart p := by
  obtain ⟨x, y, h1, h2, h3, h4, h5, h6⟩ := h
  exact ⟨y, x, h2, h1, Ne.symm h3, by rwa [Set.pair_comm], by rwa [Set.pair_comm], by rwa [Set.pair_comm]⟩

/-- Pairwise commuting operations can be made in any order. -/
theorem run_perm {b : Build} {R : Op F → Op F → Prop} (hsymm : ∀ {p q}, R p q → R q p) (hc : ∀ {p q}, R p q → ∀ s : Pid F, s.run b [p, q] = s.run b [q, p]) {ops ops' : List (Op F)}
    (h : ops.Perm ops') : ops.Pairwise R → ∀ s : Pid F, s.run b ops = s.run b ops' := by
  induction h with
  | nil => intro _ _; rfl
  | cons x h ih =>
    intro hp s
    simp only [run]
    cases s.exec b x with
    | error e => rfl
    | ok s1 => exact ih (List.pairwise_cons.mp hp).2 s1
  | swap x y l =>
    intro hp s
    have hxy : R y x := (List.pairwise_cons.mp hp).1 x (by simp)
    have := hc hxy s
    have app : ∀ p q : Op F, s.run b (p :: q :: l) = (s.run b [p, q] >>= fun s => s.run b l) := by
      intro p q
      simp only [run]
      cases s.exec b p with
      | error e => rfl
      | ok s1 =>
        simp only [res_bind_ok]
        cases s1.exec b q with
        | error e => rfl
        | ok s2 => rfl
    rw [app, app, this]
  | trans h1 h2 ih1 ih2 =>
    intro hp s
    rw [ih1 hp s, ih2 ((h1.pairwise_iff hsymm).mp hp) s]

theorem exec_pair {b : Build} (p q : Op F) (s : Pid F) : s.run b [p, q] = (s.exec b p >>= fun s => s.exec b q) := by
  simp only [run]
  cases s.exec b p with
  | error e => rfl
  | ok s1 =>
    simp only [res_bind_ok]
    cases s1.exec b q with
    | error e => rfl
    | ok s2 => rfl

/-- What `setTunings` makes of a controller. -/
def tuned (s : Pid F) (kp ki kd : F) (m : Bool) : Pid F :=
  let secs : F := Arith.div (Arith.ofRat s.sampling) (Arith.ofRat 1000)
  let s := { s with onMeasurement := m, kp, ki := Arith.mul ki secs, kd := Arith.div kd secs }
  if s.reverse then s.negate else s

/-- `setTunings` as a test and a change. -/
theorem tunings_split (b : Build) (s : Pid F) (kp ki kd : F) (m : Bool) :
    s.setTunings b kp ki kd m = (spnAssert b (Arith.le fzero kp && Arith.le fzero ki && Arith.le fzero kd) >>= fun _ => msGt s.sampling 0 >>= fun c => spnAssert b c >>= fun _ =>
      .ok (s.tuned kp ki kd m)) := rfl

theorem limits_commute (lo hi : F) (b : Build) (q : Op F) (hq : q.thing ≠ some .limits) (hq' : q.thing ≠ none) (s : Pid F) :
    (s.setLimits lo hi).exec b q = (s.exec b q).map fun s => s.setLimits lo hi := by
  by_cases hl : Arith.le hi lo = true
  · have : ∀ s : Pid F, s.setLimits lo hi = s := fun s => by simp [setLimits, hl]
    rw [this, show (fun s : Pid F => s.setLimits lo hi) = id from funext this]
    cases s.exec b q <;> rfl
  · have : ∀ s : Pid F, s.setLimits lo hi = { s with lo, hi, output := clamp lo hi s.output, cumulative := clamp lo hi s.cumulative } := fun s => by simp [setLimits, hl]
    rw [this, show (fun s : Pid F => s.setLimits lo hi) = _ from funext this]
    cases q with
    | input v => rfl
    | setpoint v => rfl
    | tunings kp ki kd m =>
      simp only [exec, tunings_split]
      cases spnAssert b (Arith.le fzero kp && Arith.le fzero ki && Arith.le fzero kd) with
      | error e => rfl
      | ok _ =>
        simp only [res_bind_ok]
        cases msGt s.sampling 0 with
        | error e => rfl
        | ok c =>
          simp only [res_bind_ok]
          cases spnAssert b c with
          | error e => rfl
          | ok _ =>
            simp only [res_bind_ok, tuned, negate, Except.map]
            cases s.reverse <;> rfl
    | direction r =>
      simp only [exec, setDirection, negate, Except.map]
      split <;> rfl
    | sampling t =>
      simp only [exec, setSampling]
      cases msGt t 0 with
      | error e => rfl
      | ok c =>
        cases c with
        | false => rfl
        | true =>
          simp only [res_bind_ok, if_true]
          split <;> rfl
    | limits lo hi => exact absurd rfl hq
    | update now => exact absurd rfl hq'
    | start => exact absurd rfl hq'

theorem write_commute (f : Pid F → Pid F) (x : Thing) (hx : (x = .input ∧ ∃ v, f = fun s => { s with input := v }) ∨ (x = .setpoint ∧ ∃ v, f = fun s => { s with setpoint := v }))
    (b : Build) (q : Op F) (hq : q.thing ≠ some x) (hq' : q.thing ≠ none) (s : Pid F) : (f s).exec b q = (s.exec b q).map f := by
  have tun : ∀ (s s1 : Pid F) (f : Pid F → Pid F) (kp ki kd : F) (m : Bool), s1 = f s → s1.sampling = s.sampling → s1.tuned kp ki kd m = f (s.tuned kp ki kd m) →
      s1.setTunings b kp ki kd m = (s.setTunings b kp ki kd m).map f := by
    intro s s1 f kp ki kd m h1 h2 h3
    rw [tunings_split, tunings_split, h2, h3]
    cases spnAssert b (Arith.le fzero kp && Arith.le fzero ki && Arith.le fzero kd) with
    | error e => rfl
    | ok _ =>
      simp only [res_bind_ok]
      cases msGt s.sampling 0 with
      | error e => rfl
      | ok c =>
        simp only [res_bind_ok]
        cases spnAssert b c <;> rfl
  have sam : ∀ (s s1 : Pid F) (f : Pid F → Pid F) (t : Int), s1 = f s → s1.sampling = s.sampling → (∀ r : F, { s1 with ki := Arith.mul s1.ki r, kd := Arith.div s1.kd r, sampling := t } =
      f { s with ki := Arith.mul s.ki r, kd := Arith.div s.kd r, sampling := t }) → s1.setSampling t = (s.setSampling t).map f := by
    intro s s1 f t h1 h2 h3
    simp only [setSampling, h2, h3]
    cases msGt t 0 with
    | error e => rfl
    | ok c =>
      cases c with
      | false => rw [h1]; rfl
      | true =>
        simp only [res_bind_ok, if_true]
        split <;> rfl
  rcases hx with ⟨rfl, v, rfl⟩ | ⟨rfl, v, rfl⟩
  · cases q with
    | input v => exact absurd rfl hq
    | setpoint v => rfl
    | tunings kp ki kd m => exact tun _ _ _ _ _ _ _ rfl rfl (by simp only [tuned, negate]; cases s.reverse <;> rfl)
    | direction r => simp only [exec, setDirection, negate, Except.map]; split <;> rfl
    | sampling t => exact sam _ _ _ _ rfl rfl fun _ => rfl
    | limits lo hi => simp only [exec, setLimits, Except.map]; split <;> rfl
    | update now => exact absurd rfl hq'
    | start => exact absurd rfl hq'
  · cases q with
    | input v => rfl
    | setpoint v => exact absurd rfl hq
    | tunings kp ki kd m => exact tun _ _ _ _ _ _ _ rfl rfl (by simp only [tuned, negate]; cases s.reverse <;> rfl)
    | direction r => simp only [exec, setDirection, negate, Except.map]; split <;> rfl
    | sampling t => exact sam _ _ _ _ rfl rfl fun _ => rfl
    | limits lo hi => simp only [exec, setLimits, Except.map]; split <;> rfl
    | update now => exact absurd rfl hq'
    | start => exact absurd rfl hq'

/-- A change that never fails, and that another operation commutes with. -/
theorem commute_of_map {b : Build} {p q : Op F} {f : Pid F → Pid F} {s : Pid F} (hp : ∀ s : Pid F, s.exec b p = .ok (f s)) (h : (f s).exec b q = (s.exec b q).map f) :
    s.run b [p, q] = s.run b [q, p] := by
  rw [exec_pair, exec_pair, hp, res_bind_ok, h]
  cases s.exec b q with
  | error e => rfl
  | ok s1 => simp only [res_bind_ok, hp, Except.map]

/-- One of the two sets an input, a setpoint or limits. -/
theorem simple_commute {b : Build} {p q : Op F} {x y : Thing} (hp : p.thing = some x) (hq : q.thing = some y) (hne : x ≠ y) (hx : x = .input ∨ x = .setpoint ∨ x = .limits)
    (s : Pid F) : s.run b [p, q] = s.run b [q, p] := by
  have hq1 : q.thing ≠ some x := by rw [hq]; exact fun h => hne (Option.some.inj h).symm
  have hq2 : q.thing ≠ none := by rw [hq]; simp
  cases p with
  | input v => obtain rfl := Option.some.inj hp; exact commute_of_map (f := fun s => { s with input := v }) (fun _ => rfl) (write_commute _ .input (.inl ⟨rfl, v, rfl⟩) b q hq1 hq2 s)
  | setpoint v => obtain rfl := Option.some.inj hp; exact commute_of_map (f := fun s => { s with setpoint := v }) (fun _ => rfl) (write_commute _ .setpoint (.inr ⟨rfl, v, rfl⟩) b q hq1 hq2 s)
  | limits lo hi => obtain rfl := Option.some.inj hp; exact commute_of_map (f := fun s => s.setLimits lo hi) (fun _ => rfl) (limits_commute lo hi b q hq1 hq2 s)
  | tunings kp ki kd m => obtain rfl := Option.some.inj hp; simp at hx
  | direction r => obtain rfl := Option.some.inj hp; simp at hx
  | sampling t => obtain rfl := Option.some.inj hp; simp at hx
  | update now => cases hp
  | start => cases hp

theorem far_commute {b : Build} {p q : Op F} (h : p.FarApart q) (s : Pid F) : s.run b [p, q] = s.run b [q, p] := by
  obtain ⟨x, y, h1, h2, h3, h4, h5, h6⟩ := h
  by_cases hx : x = .input ∨ x = .setpoint ∨ x = .limits
  · exact simple_commute h1 h2 h3 hx s
  · by_cases hy : y = .input ∨ y = .setpoint ∨ y = .limits
    · exact (simple_commute h2 h1 (Ne.symm h3) hy s).symm
    · cases x <;> cases y <;> simp [Set.pair_comm] at hx hy h3 h4 h5 h6

/-- **C201.** In any arithmetic, in particular with floats: settings of different things can be made in any order, with the same outcome in the same state, as long as the gains, the
direction and the sampling time are not set together. -/
theorem C201_any_order (b : Build) {ops ops' : List (Op F)} (hp : ops.Perm ops') (h : ops.Pairwise Op.FarApart) (s : Pid F) : s.run b ops = s.run b ops' :=
  run_perm (fun h => h.symm) (fun h => far_commute h) hp h s

end

theorem sub_sub_zero (k : Rat) : Arith.sub fzero (Arith.sub fzero k) = k := by simp [Arith.sub, fzero, Arith.ofRat]

theorem apart_commute {b : Build} {p q : Op Rat} (h : p.Apart q) (s : Pid Rat) : s.run b [p, q] = s.run b [q, p] := by
  obtain ⟨x, y, h1, h2, h3, h4⟩ := h
  have gd : ∀ (kp ki kd : Rat) (m r : Bool), s.run b [.direction r, .tunings kp ki kd m] = s.run b [.tunings kp ki kd m, .direction r] := by
    intro kp ki kd m r
    refine commute_of_map (f := fun s => s.setDirection r) (fun _ => rfl) ?_
    have hs : (s.setDirection r).sampling = s.sampling := by unfold setDirection; split <;> rfl
    have ht : (s.setDirection r).tuned kp ki kd m = (s.tuned kp ki kd m).setDirection r := by
      obtain ⟨kp0, ki0, kd0, r0, inp, out, sp, lt, cu, lr, sa, lo, hi, om⟩ := s
      cases r <;> cases r0 <;> simp [setDirection, tuned, negate, sub_sub_zero]
    simp only [exec, tunings_split, hs, ht]
    cases spnAssert b (Arith.le fzero kp && Arith.le fzero ki && Arith.le fzero kd) with
    | error e => rfl
    | ok _ =>
      simp only [res_bind_ok]
      cases msGt s.sampling 0 with
      | error e => rfl
      | ok c =>
        simp only [res_bind_ok]
        cases spnAssert b c <;> rfl
  have ds : ∀ (r : Bool) (t : Int), s.run b [.direction r, .sampling t] = s.run b [.sampling t, .direction r] := by
    intro r t
    refine commute_of_map (f := fun s => s.setDirection r) (fun _ => rfl) ?_
    obtain ⟨kp0, ki0, kd0, r0, inp, out, sp, lt, cu, lr, sa, lo, hi, om⟩ := s
    have e1 : ∀ k c : Rat, Arith.mul (Arith.sub fzero k) c = Arith.sub fzero (Arith.mul k c) := fun k c => by simp [Arith.sub, Arith.mul, fzero, Arith.ofRat]
    have e2 : ∀ k c : Rat, Arith.div (Arith.sub fzero k) c = Arith.sub fzero (Arith.div k c) := fun k c => by simp [Arith.sub, Arith.div, fzero, Arith.ofRat, neg_div]
    simp only [exec, setSampling]
    cases msGt t 0 with
    | error e => rfl
    | ok c =>
      cases c with
      | false => rfl
      | true =>
        simp only [res_bind_ok, if_true, setDirection, negate]
        cases r <;> cases r0 <;> simp only [bne_self_eq_false, Bool.false_eq_true, if_false, Bool.bne_true, Bool.bne_false, Bool.not_true, Bool.not_false, if_true, e1, e2] <;> split <;>
          simp [Except.map, res_pure] <;> rfl
  by_cases hx : x = .input ∨ x = .setpoint ∨ x = .limits
  · exact simple_commute h1 h2 h3 hx s
  · by_cases hy : y = .input ∨ y = .setpoint ∨ y = .limits
    · exact (simple_commute h2 h1 (Ne.symm h3) hy s).symm
    · cases p <;> cases q <;> simp only [Op.thing, Option.some.injEq, reduceCtorEq] at h1 h2 <;> subst h1 <;> subst h2 <;> simp [Set.pair_comm] at hx hy h3 h4
      · exact (gd _ _ _ _ _).symm
      · exact gd _ _ _ _ _
      · exact ds _ _
      · exact (ds _ _).symm

/-- **C201.** In exact arithmetic: settings of different things can be made in any order, with the same outcome in the same state, as long as the gains and the sampling time are not
set together. -/
theorem C201_any_order_exact (b : Build) {ops ops' : List (Op Rat)} (hp : ops.Perm ops') (h : ops.Pairwise Op.Apart) (s : Pid Rat) : s.run b ops = s.run b ops' :=
  run_perm (fun h => h.symm) (fun h => apart_commute h) hp h s

theorem sampling_ok {s : Pid Rat} (hs : 0 < s.sampling) {t : Int} (ht : 0 < t) :
    s.setSampling t = .ok { s with ki := Arith.mul s.ki (Arith.ofRat (Int.tdiv t s.sampling)), kd := Arith.div s.kd (Arith.ofRat (Int.tdiv t s.sampling)), sampling := t } := by
  simp only [setSampling, msGt_zero ht, res_bind_ok, if_true, if_neg hs.ne']
  rfl

theorem tunings_ok {b : Build} {s : Pid Rat} (hs : 0 < s.sampling) {kp ki kd : Rat} (h1 : 0 ≤ kp) (h2 : 0 ≤ ki) (h3 : 0 ≤ kd) (m : Bool) :
    s.setTunings b kp ki kd m = .ok (s.tuned kp ki kd m) := by
  have : (Arith.le fzero kp && Arith.le fzero ki && Arith.le fzero kd) = true := by simp [Arith.le, fzero, Arith.ofRat, h1, h2, h3]
  rw [tunings_split, this, msGt_zero hs, spnAssert_true, res_bind_ok, res_bind_ok, spnAssert_true, res_bind_ok]

/-- **C201**, the part that holds of the gains and the sampling time, in exact arithmetic: they can be set in either order if the new sampling time is a multiple of the former one.
Missing: the other sampling times, see `C201_sampling_counterexample`. -/
theorem C201_sampling_partial (b : Build) (s : Pid Rat) (hs : 0 < s.sampling) {kp ki kd : Rat} (h1 : 0 ≤ kp) (h2 : 0 ≤ ki) (h3 : 0 ≤ kd) (m : Bool) {t : Int} (ht : 0 < t)
    (hd : s.sampling ∣ t) : s.run b [.tunings kp ki kd m, .sampling t] = s.run b [.sampling t, .tunings kp ki kd m] := by
  obtain ⟨c, rfl⟩ := hd
  have hc : 0 < c := (pos_iff_pos_of_mul_pos ht).mp hs
  have hq : Int.tdiv (s.sampling * c) s.sampling = c := Int.mul_tdiv_cancel_left c hs.ne'
  have ht1 : (s.tuned kp ki kd m).sampling = s.sampling := by unfold tuned; cases s.reverse <;> rfl
  rw [exec_pair, exec_pair]
  simp only [exec]
  rw [tunings_ok hs h1 h2 h3, sampling_ok hs ht, res_bind_ok, res_bind_ok, sampling_ok (by rw [ht1]; exact hs) ht, tunings_ok (by exact ht) h1 h2 h3, ht1, hq]
  obtain ⟨kp0, ki0, kd0, r0, inp, out, sp, lt, cu, lr, sa, lo, hi, om⟩ := s
  simp only at hs
  have hsa : (sa : Rat) ≠ 0 := by exact_mod_cast hs.ne'
  have hcr : (c : Rat) ≠ 0 := by exact_mod_cast hc.ne'
  have e1 : ki * ((sa : Rat) / 1000) * c = ki * (((sa * c : Int) : Rat) / 1000) := by push_cast; ring
  have e2 : kd / ((sa : Rat) / 1000) / c = kd / (((sa * c : Int) : Rat) / 1000) := by push_cast; field_simp
  cases r0
  · simp only [tuned, Bool.false_eq_true, if_false, Arith.mul, Arith.div, Arith.ofRat, Rat.cast_id, e1, e2]
  · simp only [tuned, if_true, negate, Arith.mul, Arith.div, Arith.sub, Arith.ofRat, fzero, zero_sub, neg_mul, neg_div, e1, e2]

/-- **C201** does not hold for the gains and any other sampling time: the integral gain depends on which is set first. -/
theorem C201_sampling_counterexample (b : Build) (s : Pid Rat) (hs : 0 < s.sampling) {kp ki kd : Rat} (h1 : 0 ≤ kp) (h2 : 0 < ki) (h3 : 0 ≤ kd) (m : Bool) {t : Int} (ht : 0 < t)
    (hd : ¬ s.sampling ∣ t) :
    ∃ s1 s2, s.run b [.tunings kp ki kd m, .sampling t] = .ok s1 ∧ s.run b [.sampling t, .tunings kp ki kd m] = .ok s2 ∧ |s1.ki| < |s2.ki| := by
  have ht1 : (s.tuned kp ki kd m).sampling = s.sampling := by unfold tuned; cases s.reverse <;> rfl
  have e1 : s.run b [.tunings kp ki kd m, .sampling t] = .ok { s.tuned kp ki kd m with
      ki := Arith.mul (s.tuned kp ki kd m).ki (Arith.ofRat (Int.tdiv t s.sampling)), kd := Arith.div (s.tuned kp ki kd m).kd (Arith.ofRat (Int.tdiv t s.sampling)), sampling := t } := by
    rw [exec_pair]
    simp only [exec]
    rw [tunings_ok hs h1 h2.le h3, res_bind_ok, sampling_ok (by rw [ht1]; exact hs) ht, ht1]
  have e2 : s.run b [.sampling t, .tunings kp ki kd m] = .ok (({ s with
      ki := Arith.mul s.ki (Arith.ofRat (Int.tdiv t s.sampling)), kd := Arith.div s.kd (Arith.ofRat (Int.tdiv t s.sampling)), sampling := t } : Pid Rat).tuned kp ki kd m) := by
    rw [exec_pair]
    simp only [exec]
    rw [sampling_ok hs ht, res_bind_ok, tunings_ok (by exact ht) h1 h2.le h3]
  refine ⟨_, _, e1, e2, ?_⟩
  clear e1 e2
  obtain ⟨kp0, ki0, kd0, r0, inp, out, sp, lt, cu, lr, sa, lo, hi, om⟩ := s
  simp only at hs hd
  have hlt : sa * Int.tdiv t sa < t := by
    have h := Int.mul_tdiv_add_tmod t sa
    have h0 : 0 ≤ Int.tmod t sa := Int.tmod_nonneg _ ht.le
    have hn : Int.tmod t sa ≠ 0 := fun h => hd (Int.dvd_of_tmod_eq_zero h)
    omega
  have hq : 0 ≤ Int.tdiv t sa := Int.tdiv_nonneg ht.le hs.le
  have hlt' : (sa : Rat) * (Int.tdiv t sa : Int) < t := by exact_mod_cast hlt
  have hsa : (0 : Rat) < sa := by exact_mod_cast hs
  have hq' : (0 : Rat) ≤ (Int.tdiv t sa : Int) := by exact_mod_cast hq
  have htr : (0 : Rat) < t := by exact_mod_cast ht
  have key : |ki * ((sa : Rat) / 1000) * (Int.tdiv t sa : Int)| < |ki * ((t : Rat) / 1000)| := by
    rw [abs_of_nonneg (by positivity), abs_of_nonneg (by positivity)]
    have := mul_lt_mul_of_pos_left hlt' h2
    linarith
  cases r0
  · simpa only [tuned, Bool.false_eq_true, if_false, Arith.mul, Arith.div, Arith.ofRat] using key
  · simpa only [tuned, if_true, negate, Arith.mul, Arith.div, Arith.sub, Arith.ofRat, fzero, zero_sub, neg_mul, abs_neg] using key

/-! ## Concrete cases -/

/-- Five settings meet the hypothesis of `C201_any_order_exact`. -/
example : ([.tunings 20 3 1 false, .direction true, .limits 0 100, .setpoint 50, .input 20] : List (Op Rat)).Pairwise Op.Apart := by
  have h : ∀ {p q : Op Rat} {x y : Thing}, p.thing = some x → q.thing = some y → x ≠ y → x ≠ .sampling → y ≠ .sampling → p.Apart q := by
    intro p q x y h1 h2 h3 h4 h5
    refine ⟨x, y, h1, h2, h3, fun he => ?_⟩
    have : Thing.sampling ∈ ({x, y} : Set Thing) := by rw [he]; simp
    rcases this with h | h
    · exact h4 h.symm
    · exact h5 h.symm
  simp only [List.pairwise_cons, List.mem_cons, List.not_mem_nil, or_false, forall_eq_or_imp, forall_eq, List.Pairwise.nil, and_true, IsEmpty.forall_iff, implies_true]
  refine ⟨⟨?_, ?_, ?_, ?_⟩, ⟨?_, ?_, ?_⟩, ⟨?_, ?_⟩, ?_⟩ <;> exact h rfl rfl (by decide) (by decide) (by decide)

/-- The default sampling time of 100 ms, set to 150 ms: the integral gain is 3/10 or 9/20. -/
example : (do
    let s ← Pid.create .debug 0 (0 : Rat) 0 0 1 1 1 false false
    let s1 ← s.run .debug [.tunings 20 3 1 false, .sampling 150]
    let s2 ← s.run .debug [.sampling 150, .tunings 20 3 1 false]
    return (s1.ki, s2.ki) : Res (Rat × Rat)) = .ok (3 / 10, 9 / 20) := by decide +kernel

/-- Why `C201_any_order` leaves out the gains with the direction: with floats the sign of a zero depends on the order. -/
example : (do
    let s ← Pid.create .debug 0 (fzero : Fl) fzero fzero fzero fzero fzero false true
    let s1 ← s.run .debug [.tunings (.num true 0) fzero fzero false, .direction false]
    let s2 ← s.run .debug [.direction false, .tunings (.num true 0) fzero fzero false]
    return (s1.kp, s2.kp) : Res (Fl × Fl)) = .ok (.num false 0, .num true 0) := by decide +kernel

end Pid

/-! ## Interrupts -/

namespace Interrupt

/-- Specification: the number that is given to the core for a pin; `none` if there is none. -/
def number (board : Board) (pin : Nat) : Option Nat := if board.direct then some pin else board.line pin

theorem attach_eq {H : Type} (b : Build) (board : Board) (i : Interrupt H) (c : Option H) (t : Trigger) {n : Nat} (hn : number board i.pin = some n) :
    ∃ (i' : Interrupt H) (en : Option H × Nat), ∀ ls, attach b board ls i c t = .ok (i', attachLine board ls n en) := by
  unfold number at hn
  by_cases hd : board.direct = true
  · rw [if_pos hd] at hn
    obtain rfl := Option.some.inj hn
    refine ⟨{ i with mode := (if t ≠ .undefined then t else i.mode), callback := (match c with | some c => some c | none => i.callback) }, ((match c with | some c => some c | none => i.callback), modeBits (if t ≠ .undefined then t else i.mode)), fun ls => ?_⟩
    simp only [attach, hd, if_true]
    rfl
  · rw [if_neg hd] at hn
    refine ⟨{ i with mode := (if t ≠ .undefined then t else i.mode), callback := (match c with | some c => some c | none => i.callback) }, ((match c with | some c => some c | none => i.callback), modeBits (if t ≠ .undefined then t else i.mode)), fun ls => ?_⟩
    simp only [attach, hd, hn, Option.isSome_some, spnAssert_true, res_bind_ok]
    rfl

/-- **C201.** Interrupts of pins with different numbers can be attached in either order. -/
theorem C201_interrupts {H : Type} (b : Build) (board : Board) (ls : Lines H) (i j : Interrupt H) (c d : Option H) (t u : Trigger) {n k : Nat} (hn : number board i.pin = some n)
    (hk : number board j.pin = some k) (hne : n ≠ k) :
    ∃ i' j' ls1 ls2 l, attach b board ls i c t = .ok (i', ls1) ∧ attach b board ls1 j d u = .ok (j', l) ∧ attach b board ls j d u = .ok (j', ls2) ∧
      attach b board ls2 i c t = .ok (i', l) := by
  obtain ⟨i', ei, hi⟩ := attach_eq b board i c t hn
  obtain ⟨j', ej, hj⟩ := attach_eq b board j d u hk
  refine ⟨i', j', _, _, _, hi ls, hj _, hj ls, ?_⟩
  rw [hi]
  congr 2
  funext m
  simp only [attachLine]
  by_cases h1 : m = n ∧ n < board.count
  · rw [if_pos h1, if_neg (by omega), if_pos h1]
  · rw [if_neg h1]
    split <;> simp [h1]

/-- Two pins of a board that has two lines. -/
example : number ⟨false, 2, fun p => if p = 2 then some 0 else if p = 3 then some 1 else none⟩ 2 = some 0 ∧
    number ⟨false, 2, fun p => if p = 2 then some 0 else if p = 3 then some 1 else none⟩ 3 = some 1 := by decide

end Interrupt

end Spine
