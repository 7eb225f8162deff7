import Verif.Spec.Relay
import Verif.Core.Bind
import Verif.Proofs.Timers
/-!
# Proofs about the auto-tuner
-/

namespace Spine
namespace Tuner

variable {F : Type} [Arith F]

/-- A step without its end. -/
def core (t : Tuner F) (x : F) (ms : Int) : Res (Tuner F) := do
  let t ← (t.extremes x).switchOff x ms
  t.switchOn x ms

theorem step_core (t : Tuner F) (x : F) (ms : Int) : t.step x ms = t.core x ms >>= fun t => .ok t.finish := by
  simp only [step, core, bind_assoc]
  rfl

/-- What one step does. -/
structure Moved (t u : Tuner F) (x : F) : Prop where
  target : u.target = t.target
  hyst : u.hysteresis = t.hysteresis
  lo : u.minOutput = t.minOutput
  hi : u.maxOutput = t.maxOutput
  cycles : u.cycles = t.cycles
  rise : t.on = true → Arith.lt (Arith.add t.target t.hysteresis) x = true → Arith.lt x (Arith.sub t.target t.hysteresis) = false →
    u.on = false ∧ u.cycle = t.cycle
  wait : t.on = true → Arith.lt (Arith.add t.target t.hysteresis) x = false → u.on = true ∧ u.cycle = t.cycle
  fall : t.on = false → Arith.lt x (Arith.sub t.target t.hysteresis) = true → u.on = true ∧ u.cycle = t.cycle + 1
  hold : t.on = false → Arith.lt x (Arith.sub t.target t.hysteresis) = false → u.on = false ∧ u.cycle = t.cycle
  value : u.outputValue = t.outputValue ∨ u.outputValue = t.minOutput ∨ u.outputValue = t.maxOutput
  steady : u.cycle = t.cycle ∨ u.cycle = t.cycle + 1
  same : u.cycle = t.cycle → u.pAverage = t.pAverage ∧ u.iAverage = t.iAverage ∧ u.dAverage = t.dAverage
  add : u.cycle = t.cycle + 1 → t.cycle > 1 → u.pAverage = Arith.add t.pAverage u.kp ∧ u.iAverage = Arith.add t.iAverage u.ki ∧ u.dAverage = Arith.add t.dAverage u.kd
  early : ¬ t.cycle > 1 → u.pAverage = t.pAverage ∧ u.iAverage = t.iAverage ∧ u.dAverage = t.dAverage

theorem switchOff_spec {t v : Tuner F} {x : F} {ms : Int} (h : t.switchOff x ms = .ok v) :
    (t.on = true ∧ Arith.lt (Arith.add t.target t.hysteresis) x = true ∧
      ∃ d, v = { t with on := false, outputValue := t.minOutput, t1 := ms, tHigh := d, max := t.target }) ∨
    ((t.on = true → Arith.lt (Arith.add t.target t.hysteresis) x = false) ∧ v = t) := by
  unfold switchOff at h
  by_cases hc : (t.on && Arith.lt (Arith.add t.target t.hysteresis) x) = true
  · rw [if_pos hc] at h
    obtain ⟨d, -, h⟩ := res_bind h
    cases h
    rw [Bool.and_eq_true] at hc
    exact .inl ⟨hc.1, hc.2, d, rfl⟩
  · rw [if_neg hc] at h
    cases h
    refine .inr ⟨fun ho => ?_, rfl⟩
    rw [ho] at hc
    simpa using hc

theorem switchOn_spec {t v : Tuner F} {x : F} {ms : Int} (h : t.switchOn x ms = .ok v) :
    (t.on = false ∧ Arith.lt x (Arith.sub t.target t.hysteresis) = true ∧
      ∃ d kp ki kd, v = { t with on := true, outputValue := t.maxOutput, t2 := ms, tLow := d, kp := kp, ki := ki, kd := kd, pAverage := if t.cycle > 1 then Arith.add t.pAverage kp else t.pAverage, iAverage := if t.cycle > 1 then Arith.add t.iAverage ki else t.iAverage, dAverage := if t.cycle > 1 then Arith.add t.dAverage kd else t.dAverage, min := t.target, cycle := t.cycle + 1 }) ∨
    ((t.on = false → Arith.lt x (Arith.sub t.target t.hysteresis) = false) ∧ v = t) := by
  unfold switchOn at h
  by_cases hc : (!t.on && Arith.lt x (Arith.sub t.target t.hysteresis)) = true
  · rw [if_pos hc] at h
    obtain ⟨d, -, h⟩ := res_bind h
    obtain ⟨g, -, h⟩ := res_bind h
    obtain ⟨c, hcy, h⟩ := res_bind h
    cases h
    unfold i32 at hcy
    split at hcy <;> cases hcy
    rw [Bool.and_eq_true] at hc
    exact .inl ⟨by simpa using hc.1, hc.2, d, g.1, g.2.1, g.2.2, rfl⟩
  · rw [if_neg hc] at h
    cases h
    refine .inr ⟨fun ho => ?_, rfl⟩
    rw [ho] at hc
    simpa using hc

theorem core_moved {t u : Tuner F} {x : F} {ms : Int} (h : t.core x ms = .ok u) : Moved t u x := by
  obtain ⟨v, h1, h2⟩ := res_bind h
  rcases switchOff_spec h1 with ⟨a1, a2, d, rfl⟩ | ⟨a1, rfl⟩ <;> rcases switchOn_spec h2 with ⟨b1, b2, d2, kp, ki, kd, rfl⟩ | ⟨b1, rfl⟩ <;>
    constructor <;> simp_all [extremes]

theorem finish_false {t : Tuner F} (h : t.finished = false) : t.finish = t := by simp [finish, h]

theorem step_inv {t u : Tuner F} {x : F} {ms : Int} (h : t.step x ms = .ok u) : ∃ v, t.core x ms = .ok v ∧ u = v.finish := by
  rw [step_core] at h
  obtain ⟨v, h1, h2⟩ := res_bind h
  cases h2
  exact ⟨v, h1, rfl⟩

theorem finish_cycle (t : Tuner F) : t.finish.cycle = t.cycle ∧ t.finish.cycles = t.cycles ∧ t.finish.finished = t.finished ∧ t.finish.target = t.target ∧
    t.finish.hysteresis = t.hysteresis ∧ t.finish.minOutput = t.minOutput ∧ t.finish.maxOutput = t.maxOutput ∧ t.finish.pAverage = t.pAverage ∧ t.finish.iAverage = t.iAverage ∧
    t.finish.dAverage = t.dAverage := by
  unfold finish
  split <;> simp_all [finished]

/-- Outputs are always one of the two configured. -/
theorem step_value {t u : Tuner F} {x : F} {ms : Int} (h : t.step x ms = .ok u) (hv : t.outputValue = t.minOutput ∨ t.outputValue = t.maxOutput) :
    (u.outputValue = t.minOutput ∨ u.outputValue = t.maxOutput) ∧ u.minOutput = t.minOutput ∧ u.maxOutput = t.maxOutput ∧ u.cycles = t.cycles := by
  obtain ⟨v, h1, rfl⟩ := step_inv h
  have hm := core_moved h1
  have hf := finish_cycle v
  refine ⟨?_, hf.2.2.2.2.2.1.trans hm.lo, hf.2.2.2.2.2.2.1.trans hm.hi, hf.2.1.trans hm.cycles⟩
  unfold finish
  split
  · left; exact hm.lo
  · rcases hm.value with h | h | h <;> simp [h, hv]

theorem run_value (l : List (F × Int)) : ∀ (t : Tuner F) (ts : List (Tuner F)), t.run l = .ok ts → (t.outputValue = t.minOutput ∨ t.outputValue = t.maxOutput) →
    ∀ u ∈ ts, u.outputValue = t.minOutput ∨ u.outputValue = t.maxOutput := by
  induction l with
  | nil => intro t ts h _ u hu; cases h; simp at hu
  | cons r l ih =>
    intro t ts h hv u hu
    obtain ⟨x, ms⟩ := r
    simp only [run] at h
    obtain ⟨t1, h1, h⟩ := res_bind h
    obtain ⟨ts1, h2, h⟩ := res_bind h
    cases h
    obtain ⟨e1, e2, e3, e4⟩ := step_value h1 hv
    rcases List.mem_cons.mp hu with rfl | hu
    · exact e1
    · rw [← e2, ← e3]
      exact ih t1 ts1 h2 (by rw [e2, e3]; exact e1) u hu

/-- The thresholds cannot both be passed by one reading. -/
def Band (target hyst : F) : Prop := ∀ x : F, Arith.lt (Arith.add target hyst) x = true → Arith.lt x (Arith.sub target hyst) = false

theorem run_cycle (l : List (F × Int)) : ∀ (t : Tuner F) (ts : List (Tuner F)), Band t.target t.hysteresis → t.finished = false → t.run l = .ok ts →
    (∀ u ∈ ts.dropLast, u.finished = false) →
    (ts.getLastD t).cycle = t.cycle + oscillations (Arith.add t.target t.hysteresis) (Arith.sub t.target t.hysteresis) t.on (l.map Prod.fst) ∧
      (ts.getLastD t).cycle ≤ t.cycles ∧ (ts.getLastD t).cycles = t.cycles := by
  induction l with
  | nil =>
    intro t ts hb hu h _
    cases h
    simp only [finished, decide_eq_false_iff_not, ge_iff_le, not_le] at hu
    cases t.on <;> simp [oscillations, hu.le]
  | cons r l ih =>
    intro t ts hb hu h hall
    obtain ⟨x, ms⟩ := r
    simp only [run] at h
    obtain ⟨t1, h1, h⟩ := res_bind h
    obtain ⟨ts1, h2, h⟩ := res_bind h
    cases h
    obtain ⟨v, h3, rfl⟩ := step_inv h1
    have hm := core_moved h3
    have hf := finish_cycle v
    have hosc : ∀ xs, oscillations (Arith.add t.target t.hysteresis) (Arith.sub t.target t.hysteresis) t.on (x :: xs) =
        (v.cycle - t.cycle).toNat + oscillations (Arith.add t.target t.hysteresis) (Arith.sub t.target t.hysteresis) v.on xs := by
      intro xs
      cases ho : t.on with
      | true =>
        cases hc : Arith.lt (Arith.add t.target t.hysteresis) x with
        | true => have := hm.rise ho hc (hb x hc); simp [oscillations, hc, this]
        | false => have := hm.wait ho hc; simp [oscillations, hc, this]
      | false =>
        cases hc : Arith.lt x (Arith.sub t.target t.hysteresis) with
        | true => have := hm.fall ho hc; simp [oscillations, hc, this]; omega
        | false => have := hm.hold ho hc; simp [oscillations, hc, this]
    have hst := hm.steady
    simp only [List.map_cons, List.getLastD_cons]
    rw [hosc]
    cases l with
    | nil =>
      simp only [run, Except.ok.injEq] at h2
      subst h2
      simp only [List.getLastD_nil, List.map_nil, hf.1, hf.2.1, hm.cycles]
      simp only [finished, decide_eq_false_iff_not, ge_iff_le, not_le] at hu
      refine ⟨?_, by omega, trivial⟩
      cases v.on <;> simp [oscillations] <;> omega
    | cons r2 l2 =>
      have hts1 : ts1 ≠ [] := by
        obtain ⟨x2, ms2⟩ := r2
        simp only [run] at h2
        obtain ⟨_, _, h2⟩ := res_bind h2
        obtain ⟨_, _, h2⟩ := res_bind h2
        cases h2; simp
      rw [List.dropLast_cons_of_ne_nil hts1] at hall
      have hv0 : v.finish.finished = false := hall _ (by simp)
      have hvf : v.finished = false := hf.2.2.1 ▸ hv0
      rw [finish_false hvf] at h2 ⊢
      have := ih v ts1 (by rw [hm.target, hm.hyst]; exact hb) hvf h2 (fun u hu' => hall u (by simp [hu']))
      rw [hm.target, hm.hyst, hm.cycles] at this
      refine ⟨?_, this.2⟩
      rw [this.1]
      omega

/-! ### Averages -/

theorem switchOff_cycles (t : Tuner F) (n : Int) (x : F) (ms : Int) :
    ({ t with cycles := n } : Tuner F).switchOff x ms = (t.switchOff x ms).map fun u => { u with cycles := n } := by
  unfold switchOff
  by_cases hc : (t.on && Arith.lt (Arith.add t.target t.hysteresis) x) = true
  · rw [if_pos hc, if_pos hc]
    cases hm : msSub ms t.t2 <;> simp only [res_bind_ok, res_bind_error, res_pure, Except.map]
  · rw [if_neg hc, if_neg hc]
    rfl

theorem switchOn_cycles (t : Tuner F) (n : Int) (x : F) (ms : Int) :
    ({ t with cycles := n } : Tuner F).switchOn x ms = (t.switchOn x ms).map fun u => { u with cycles := n } := by
  unfold switchOn
  by_cases hc : (!t.on && Arith.lt x (Arith.sub t.target t.hysteresis)) = true
  · rw [if_pos hc, if_pos hc]
    cases hm : msSub ms t.t1 with
    | error e => simp only [res_bind_error, Except.map]
    | ok d =>
      simp only [res_bind_ok, gains]
      cases hi : i64 (d + t.tHigh) with
      | error e => simp only [res_bind_error, Except.map]
      | ok q =>
        simp only [res_bind_ok, res_pure]
        cases hj : i32 (t.cycle + 1) <;> simp only [res_bind_ok, res_bind_error, Except.map]
  · rw [if_neg hc, if_neg hc]
    rfl

theorem core_cycles (t : Tuner F) (n : Int) (x : F) (ms : Int) :
    ({ t with cycles := n } : Tuner F).core x ms = (t.core x ms).map fun u => { u with cycles := n } := by
  unfold core
  rw [show ({ t with cycles := n } : Tuner F).extremes x = { t.extremes x with cycles := n } from rfl, switchOff_cycles]
  cases (t.extremes x).switchOff x ms with
  | error e => rfl
  | ok v => simp only [Except.map, res_bind_ok]; exact switchOn_cycles v n x ms

/-- A run that ends by finishing, seen by a tuner with one cycle more. -/
theorem run_more (l : List (F × Int)) : ∀ (t : Tuner F) (ts : List (Tuner F)), t.finished = false → t.run l = .ok ts → (∀ u ∈ ts.dropLast, u.finished = false) →
    ∃ ts' : List (Tuner F), ({ t with cycles := t.cycles + 1 } : Tuner F).run l = .ok ts' ∧
      (∀ u ∈ ts', u.finished = false) ∧
      (ts'.getLastD { t with cycles := t.cycles + 1 }).pAverage = (ts.getLastD t).pAverage ∧
      (ts'.getLastD { t with cycles := t.cycles + 1 }).iAverage = (ts.getLastD t).iAverage ∧
      (ts'.getLastD { t with cycles := t.cycles + 1 }).dAverage = (ts.getLastD t).dAverage ∧
      (ts'.getLastD { t with cycles := t.cycles + 1 }).cycle = (ts.getLastD t).cycle := by
  induction l with
  | nil => intro t ts hu h _; cases h; exact ⟨[], rfl, by simp, rfl, rfl, rfl, rfl⟩
  | cons r l ih =>
    intro t ts hu h hall
    obtain ⟨x, ms⟩ := r
    simp only [run] at h
    obtain ⟨t1, h1, h⟩ := res_bind h
    obtain ⟨ts1, h2, h⟩ := res_bind h
    cases h
    obtain ⟨v, h3, rfl⟩ := step_inv h1
    have hm := core_moved h3
    have hf := finish_cycle v
    have hst := hm.steady
    simp only [finished, decide_eq_false_iff_not, ge_iff_le, not_le] at hu
    have hv1 : ({ v with cycles := t.cycles + 1 } : Tuner F).finished = false := by
      simp only [finished, decide_eq_false_iff_not, ge_iff_le, not_le]; omega
    have hstep : ({ t with cycles := t.cycles + 1 } : Tuner F).step x ms = .ok { v with cycles := t.cycles + 1 } := by
      rw [step_core, core_cycles, h3]
      simp only [Except.map, res_bind_ok, finish_false hv1]
    cases l with
    | nil =>
      simp only [run, Except.ok.injEq] at h2
      subst h2
      refine ⟨[{ v with cycles := t.cycles + 1 }], by simp only [run, hstep, res_bind_ok, res_pure], by simpa using hv1, ?_⟩
      simp only [List.getLastD_cons, List.getLastD_nil]
      exact ⟨hf.2.2.2.2.2.2.2.1.symm, hf.2.2.2.2.2.2.2.2.1.symm, hf.2.2.2.2.2.2.2.2.2.symm, hf.1.symm⟩
    | cons r2 l2 =>
      have hts1 : ts1 ≠ [] := by
        obtain ⟨x2, ms2⟩ := r2
        simp only [run] at h2
        obtain ⟨_, _, h2⟩ := res_bind h2
        obtain ⟨_, _, h2⟩ := res_bind h2
        cases h2; simp
      rw [List.dropLast_cons_of_ne_nil hts1] at hall
      have hvf : v.finished = false := hf.2.2.1 ▸ hall _ (List.mem_cons_self)
      rw [finish_false hvf] at h2 ⊢
      obtain ⟨ts', e1, e2, e3⟩ := ih v ts1 hvf h2 (fun u hu' => hall u (by simp [hu']))
      rw [hm.cycles] at e1 e3
      refine ⟨{ v with cycles := t.cycles + 1 } :: ts', by rw [run, hstep, res_bind_ok, e1]; rfl, ?_, ?_⟩
      · intro u hu'
        rcases List.mem_cons.mp hu' with rfl | hu'
        · exact hv1
        · exact e2 u hu'
      · simp only [List.getLastD_cons]
        exact e3

/-- While the tuner runs, the sums are those of the gains seen, without the first two. -/
theorem run_sums (l : List (Rat × Int)) : ∀ (t : Tuner Rat) (ts : List (Tuner Rat)), 0 ≤ t.cycle → t.run l = .ok ts → (∀ u ∈ ts, u.finished = false) →
    (ts.getLastD t).pAverage = t.pAverage + (((gainsSeen t.cycle ts).drop (2 - t.cycle).toNat).map (·.1)).sum ∧
    (ts.getLastD t).iAverage = t.iAverage + (((gainsSeen t.cycle ts).drop (2 - t.cycle).toNat).map (·.2.1)).sum ∧
    (ts.getLastD t).dAverage = t.dAverage + (((gainsSeen t.cycle ts).drop (2 - t.cycle).toNat).map (·.2.2)).sum ∧
    (ts.getLastD t).cycle = t.cycle + (gainsSeen t.cycle ts).length := by
  induction l with
  | nil => intro t ts _ h _; cases h; simp [gainsSeen]
  | cons r l ih =>
    intro t ts h0 h hall
    obtain ⟨x, ms⟩ := r
    simp only [run] at h
    obtain ⟨t1, h1, h⟩ := res_bind h
    obtain ⟨ts1, h2, h⟩ := res_bind h
    cases h
    obtain ⟨v, h3, rfl⟩ := step_inv h1
    have hm := core_moved h3
    have hf := finish_cycle v
    have hst := hm.steady
    have hvf : v.finished = false := hf.2.2.1 ▸ hall _ (List.mem_cons_self)
    rw [finish_false hvf] at h2 ⊢
    have := ih v ts1 (by omega) h2 (fun u hu => hall u (by simp [hu]))
    simp only [List.getLastD_cons]
    rcases hst with e | e
    · have hs := hm.same e
      rw [e, hs.1, hs.2.1, hs.2.2] at this
      have hg : gainsSeen t.cycle (v :: ts1) = gainsSeen t.cycle ts1 := by simp [gainsSeen, e]
      rw [hg]
      exact this
    · have hg : gainsSeen t.cycle (v :: ts1) = (v.kp, v.ki, v.kd) :: gainsSeen v.cycle ts1 := by simp [gainsSeen, e]
      rw [hg, this.1, this.2.1, this.2.2.1, this.2.2.2]
      by_cases hc : t.cycle > 1
      · have ha := hm.add e hc
        have e1 : (2 - t.cycle).toNat = 0 := by omega
        have e2 : (2 - v.cycle).toNat = 0 := by omega
        rw [ha.1, ha.2.1, ha.2.2, e1, e2]
        simp only [List.drop_zero, List.map_cons, List.sum_cons, List.length_cons, Arith.add, Nat.cast_succ]
        refine ⟨by ring, by ring, by ring, by omega⟩
      · have ha := hm.early hc
        have e1 : (2 - t.cycle).toNat = (2 - v.cycle).toNat + 1 := by omega
        rw [ha.1, ha.2.1, ha.2.2, e1]
        simp only [List.drop_succ_cons, List.length_cons, Nat.cast_succ]
        exact ⟨trivial, trivial, trivial, by omega⟩

/-- The last tuner of a run: its gains if it has finished, its cycle count if those before have not. -/
theorem run_last (l : List (F × Int)) : ∀ (t : Tuner F) (ts : List (Tuner F)), t.run l = .ok ts → ∀ u, ts.getLast? = some u →
    (u.finished = true → u.kp = Arith.div u.pAverage (Arith.ofRat (u.cycle - 1)) ∧ u.ki = Arith.div u.iAverage (Arith.ofRat (u.cycle - 1)) ∧
      u.kd = Arith.div u.dAverage (Arith.ofRat (u.cycle - 1))) ∧
    (t.finished = false → (∀ u ∈ ts.dropLast, u.finished = false) → u.cycle ≤ t.cycles ∧ u.cycles = t.cycles) := by
  induction l with
  | nil => intro t ts h u hu; cases h; simp at hu
  | cons r l ih =>
    intro t ts h u hu
    obtain ⟨x, ms⟩ := r
    simp only [run] at h
    obtain ⟨t1, h1, h⟩ := res_bind h
    obtain ⟨ts1, h2, h⟩ := res_bind h
    cases h
    obtain ⟨v, h3, rfl⟩ := step_inv h1
    have hm := core_moved h3
    have hf := finish_cycle v
    have hst := hm.steady
    cases ts1 with
    | nil =>
      simp only [List.getLast?_singleton, Option.some.injEq] at hu
      subst hu
      refine ⟨fun hfin => ?_, fun h0 _ => ?_⟩
      · have : v.finished = true := hf.2.2.1 ▸ hfin
        simp [finish, this]
      · simp only [finished, decide_eq_false_iff_not, ge_iff_le, not_le] at h0
        rw [hf.1, hf.2.1, hm.cycles]
        omega
    | cons t2 ts2 =>
      rw [List.getLast?_cons_cons] at hu
      obtain ⟨i1, i2⟩ := ih _ _ h2 u hu
      refine ⟨i1, fun h0 hall => ?_⟩
      rw [List.dropLast_cons_of_ne_nil (by simp)] at hall
      have := i2 (hall _ List.mem_cons_self) (fun u hu => hall u (List.mem_cons_of_mem _ hu))
      rw [hf.2.1, hm.cycles] at this
      exact this

/-! ### The loop of `PID::autotune` -/

theorem loop_run {b : Build} {lo hi : F} (env : List (F × Int)) : ∀ (t : Tuner F) (r : Option (List F × Tuner F)), PID.tuneLoop b lo hi t env = .ok r →
    (∀ os t', r = some (os, t') → ∃ k ts, k ≤ env.length ∧ t.run (env.take k) = .ok ts ∧ ts.length = k ∧ (∀ u ∈ (t :: ts).dropLast, u.finished = false) ∧
      os = ts.map (·.outputValue) ++ [fzero] ∧ t' = ts.getLastD t ∧ t'.finished = true) ∧
    (r = none → ∃ ts, t.run env = .ok ts ∧ ∀ u ∈ t :: ts, u.finished = false) := by
  induction env with
  | nil =>
    intro t r h
    simp only [PID.tuneLoop] at h
    split at h <;> cases h
    · next hf =>
      refine ⟨?_, by simp⟩
      rintro os t' ⟨⟩
      exact ⟨0, [], le_rfl, rfl, rfl, by simp, rfl, rfl, hf⟩
    · next hf =>
      refine ⟨by simp, fun _ => ⟨[], rfl, by simpa using hf⟩⟩
  | cons e env ih =>
    intro t r h
    obtain ⟨x, ms⟩ := e
    rw [PID.tuneLoop] at h
    by_cases hf : t.finished = true
    · rw [if_pos hf] at h
      cases h
      refine ⟨?_, by simp⟩
      rintro os t' ⟨⟩
      exact ⟨0, [], by simp, rfl, rfl, by simp, rfl, rfl, hf⟩
    · rw [if_neg hf] at h
      obtain ⟨t1, h1, h⟩ := res_bind h
      obtain ⟨_, -, h⟩ := res_bind h
      obtain ⟨_, -, h⟩ := res_bind h
      obtain ⟨r1, h2, h⟩ := res_bind h
      obtain ⟨i1, i2⟩ := ih t1 r1 h2
      have hf' : t.finished = false := by simpa using hf
      cases r1 with
      | none =>
        cases h
        obtain ⟨ts, j1, j2⟩ := i2 rfl
        refine ⟨by simp, fun _ => ⟨t1 :: ts, by rw [run, h1, res_bind_ok, j1]; rfl, ?_⟩⟩
        intro u hu
        rcases List.mem_cons.mp hu with rfl | hu
        · exact hf'
        · exact j2 u hu
      | some p =>
        obtain ⟨os1, t2⟩ := p
        cases h
        refine ⟨?_, by simp⟩
        rintro os t' ⟨⟩
        obtain ⟨k, ts, j1, j2, j2', j3, j4, j5, j6⟩ := i1 os1 t2 rfl
        refine ⟨k + 1, t1 :: ts, by simpa using j1, by rw [List.take_succ_cons, run, h1, res_bind_ok, j2]; rfl, by simp [j2'], ?_, ?_, ?_, j6⟩
        · intro u hu
          rw [List.dropLast_cons_of_ne_nil (by simp)] at hu
          rcases List.mem_cons.mp hu with rfl | hu
          · exact hf'
          · exact j3 u hu
        · rw [j4]; simp
        · rw [j5, List.getLastD_cons]

/-! ### One cycle in exact arithmetic -/

theorem play_append (l l' : List (F × Int)) : ∀ t : Tuner F, t.play (l ++ l') = t.play l >>= fun u => u.play l' := by
  induction l with
  | nil => intro t; rfl
  | cons r l ih =>
    intro t
    obtain ⟨x, ms⟩ := r
    rw [List.cons_append, play, play]
    cases h : t.step x ms with
    | error e => rfl
    | ok u => rw [res_bind_ok, res_bind_ok, ih]

theorem extremes_rat (t : Tuner Rat) (x : Rat) : t.extremes x = { t with max := Max.max t.max x, min := Min.min t.min x } := by
  simp only [extremes, Arith.lt, decide_eq_true_eq]
  congr 1
  · split
    · next h => rw [max_eq_left h.le]
    · next h => rw [max_eq_right (not_lt.mp h)]
  · split
    · next h => rw [min_eq_left h.le]
    · next h => rw [min_eq_right (not_lt.mp h)]

theorem step_of {t a u : Tuner F} {x : F} {ms : Int} (e1 : (t.extremes x).switchOff x ms = .ok a) (e2 : a.switchOn x ms = .ok u) : t.step x ms = .ok u.finish := by
  rw [step, e1, res_bind_ok, e2]; rfl

/-- Readings that do not switch. -/
theorem play_still (l : List (Rat × Int)) : ∀ t : Tuner Rat, t.finished = false →
    (∀ r ∈ l, if t.on = true then ¬ t.target + t.hysteresis < r.1 else ¬ r.1 < t.target - t.hysteresis) →
    t.play l = .ok { t with max := (l.map Prod.fst).foldl Max.max t.max, min := (l.map Prod.fst).foldl Min.min t.min } := by
  induction l with
  | nil => intro t _ _; rfl
  | cons r l ih =>
    intro t hf h
    obtain ⟨x, ms⟩ := r
    have h0 := h (x, ms) List.mem_cons_self
    have e : t.step x ms = .ok { t with max := Max.max t.max x, min := Min.min t.min x } := by
      have hfin : ∀ u : Tuner Rat, u.cycle = t.cycle → u.cycles = t.cycles → u.finish = u := by
        intro u g1 g2
        unfold finish
        rw [if_neg (by simp only [finished, g1, g2]; simpa [finished] using hf)]
      refine (step_of (a := { t with max := Max.max t.max x, min := Min.min t.min x }) (u := { t with max := Max.max t.max x, min := Min.min t.min x }) ?_ ?_).trans (congrArg Except.ok (hfin _ (by rfl) (by rfl)))
      · rw [extremes_rat]
        unfold switchOff
        rw [if_neg]
        · rfl
        intro hc
        rw [Bool.and_eq_true] at hc
        rw [show t.on = true from hc.1, if_pos rfl] at h0
        exact h0 (of_decide_eq_true hc.2)
      · unfold switchOn
        rw [if_neg]
        · rfl
        intro hc
        rw [Bool.and_eq_true] at hc
        rw [show t.on = false by simpa using hc.1, if_neg (by simp)] at h0
        exact h0 (of_decide_eq_true hc.2)
    rw [play, e, res_bind_ok]
    have := ih { t with max := Max.max t.max x, min := Min.min t.min x } hf (fun r hr => h r (List.mem_cons_of_mem _ hr))
    rw [this]
    rfl

theorem ms_exact {a b : Int} (ha0 : 0 ≤ a) (ha : a ≤ 2 ^ 24) (hb0 : 0 ≤ b) (hb : b ≤ 2 ^ 24) : msSub a b = .ok (a - b) := by
  have h : |b| ≤ 2 ^ 24 := by rw [abs_of_nonneg hb0]; exact hb
  rw [msSub_near (h.trans (by norm_num)), near_eq (v := b) h]
  exact i64_ok (by constructor <;> omega)

/-- The reading that switches off. -/
theorem step_off {t : Tuner Rat} {x : Rat} {ms : Int} (hf : t.finished = false) (ho : t.on = true) (hh : 0 ≤ t.hysteresis) (hx : t.target + t.hysteresis < x)
    (h0 : 0 ≤ t.t2) (h1 : t.t2 ≤ ms) (h2 : ms ≤ 2 ^ 24) :
    t.step x ms = .ok { t with on := false, outputValue := t.minOutput, t1 := ms, tHigh := ms - t.t2, max := t.target, min := Min.min t.min x } := by
  have hfin : ∀ u : Tuner Rat, u.cycle = t.cycle → u.cycles = t.cycles → u.finish = u := by
    intro u g1 g2
    unfold finish
    rw [if_neg (by simp only [finished, g1, g2]; simpa [finished] using hf)]
  refine (step_of (a := { t with on := false, outputValue := t.minOutput, t1 := ms, tHigh := ms - t.t2, max := t.target, min := Min.min t.min x })
    (u := { t with on := false, outputValue := t.minOutput, t1 := ms, tHigh := ms - t.t2, max := t.target, min := Min.min t.min x }) ?_ ?_).trans (congrArg Except.ok (hfin _ (by rfl) (by rfl)))
  · rw [extremes_rat]
    unfold switchOff
    rw [if_pos (by rw [Bool.and_eq_true]; exact ⟨ho, decide_eq_true hx⟩)]
    simp only
    rw [ms_exact (by omega) (by omega) (by omega) (by omega)]
    rfl
  · unfold switchOn
    rw [if_neg]
    · rfl
    intro hc
    rw [Bool.and_eq_true] at hc
    have : x < t.target - t.hysteresis := of_decide_eq_true hc.2
    linarith

/-- The reading that switches on and ends the cycle. -/
theorem step_on {t : Tuner Rat} {x : Rat} {ms : Int} (ho : t.on = false) (hx : x < t.target - t.hysteresis)
    (h0 : 0 ≤ t.t1) (h1 : t.t1 ≤ ms) (h2 : ms ≤ 2 ^ 24) (h3 : 0 ≤ t.tHigh) (h4 : t.tHigh ≤ 2 ^ 24) (h5 : -2 ^ 31 ≤ t.cycle + 1) (h6 : t.cycle + 1 < 2 ^ 31) :
    ∃ u, t.step x ms = .ok (finish u) ∧ u.on = true ∧ u.min = t.target ∧ u.t2 = ms ∧ u.cycle = t.cycle + 1 ∧ u.cycles = t.cycles ∧ u.target = t.target ∧ u.hysteresis = t.hysteresis ∧
      (u.kp, u.ki, u.kd) = relayGains t.mode ((t.maxOutput - t.minOutput) / 2) ((Max.max t.max x - Min.min t.min x) / 2) ((ms - t.t1 + t.tHigh : Int) : Rat) t.loopInterval := by
  have hs : i64 (ms - t.t1 + t.tHigh) = .ok (ms - t.t1 + t.tHigh) := i64_ok (by constructor <;> omega)
  have hc : i32 (t.cycle + 1) = .ok (t.cycle + 1) := by rw [i32, if_pos ⟨h5, h6⟩]
  have e1 : (t.extremes x).switchOff x ms = .ok { t with max := Max.max t.max x, min := Min.min t.min x } := by
    rw [extremes_rat]
    unfold switchOff
    rw [if_neg]
    · rfl
    intro hc
    rw [Bool.and_eq_true, show t.on = true ↔ False by simp [ho]] at hc
    exact hc.1
  have e2 : ∃ u, ({ t with max := Max.max t.max x, min := Min.min t.min x } : Tuner Rat).switchOn x ms = .ok u ∧ u.on = true ∧ u.min = t.target ∧ u.t2 = ms ∧ u.cycle = t.cycle + 1 ∧ u.cycles = t.cycles ∧
      u.target = t.target ∧ u.hysteresis = t.hysteresis ∧
      (u.kp, u.ki, u.kd) = relayGains t.mode ((t.maxOutput - t.minOutput) / 2) ((Max.max t.max x - Min.min t.min x) / 2) ((ms - t.t1 + t.tHigh : Int) : Rat) t.loopInterval := by
    unfold switchOn
    rw [if_pos (by rw [Bool.and_eq_true]; exact ⟨by simp [ho], decide_eq_true hx⟩)]
    simp only
    rw [ms_exact (a := ms) (b := t.t1) (by omega) (by omega) (by omega) (by omega), res_bind_ok]
    simp only [gains, hs, res_bind_ok, hc, res_pure]
    refine ⟨_, rfl, rfl, rfl, rfl, rfl, rfl, rfl, rfl, ?_⟩
    simp only [relayGains, Arith.mul, Arith.div, Arith.sub, Arith.ofRat, pi]
    have q1 : ∀ A D : Rat, 4 * (D / 2) / (314159265358979323846 / 100000000000000000000 * A / 2) = 4 * (D / 2) / (314159265358979323846 / 10 ^ 20 * (A / 2)) := by
      intro A D
      congr 1
      norm_num
      ring
    cases t.mode <;> simp only [factors, znTable, Arith.ofRat, q1] <;> refine Prod.ext ?_ (Prod.ext ?_ ?_) <;> simp only <;> ring
  obtain ⟨u, g1, g⟩ := e2
  exact ⟨u, step_of e1 g1, g⟩

end Tuner
end Spine
