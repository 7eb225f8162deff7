import Verif.Model.Gpio
import Verif.Core.Bind
import Verif.Proofs.Pid
import Verif.Props.RealUnits
import Mathlib.Tactic.Positivity
import Mathlib.Tactic.FieldSimp
/-!
# C61, C94, C95: outputs
-/

namespace Spine

open F32

/-! ## C61: fading -/

namespace Fade

theorem next_rat (up : Bool) (v inc : Rat) : next up v inc = .ok (min 1 (max 0 (v + (if up then 1 else -1) * inc))) := by
  unfold next fclamp
  show (if decide ((1 : Rat) < 0) = true then _ else _) = _
  rw [if_neg (by decide)]
  congr 1
  generalize he : Arith.add v (Arith.mul (Arith.ofRat (if up = true then 1 else -1)) inc) = x
  have hx : v + (if up then 1 else -1) * inc = x := he
  rw [hx]
  show (if decide (x < 0) = true then 0 else if decide (1 < x) = true then 1 else x) = _
  by_cases h0 : x < 0
  · rw [if_pos (decide_eq_true h0), max_eq_left h0.le, min_eq_right (by norm_num)]
  · rw [if_neg (by rwa [decide_eq_true_iff]), max_eq_right (not_lt.mp h0)]
    by_cases h1 : 1 < x
    · rw [if_pos (decide_eq_true h1), min_eq_left h1.le]
    · rw [if_neg (by rwa [decide_eq_true_iff]), min_eq_right (not_lt.mp h1)]

/-- The loop in exact arithmetic, for a distance of `k` increments. -/
theorem loop_rat (up : Bool) {inc s : Rat} (hi : 0 < inc) (hs0 : 0 ≤ s) (hs1 : s ≤ 1) : ∀ (k fuel : Nat) (v : Rat), k < fuel → 0 ≤ v → v ≤ 1 →
    ∃ vs, loop up inc fuel v (k * inc) = .ok vs ∧ vs.length = k ∧ (∀ x ∈ vs, 0 ≤ x ∧ x ≤ 1) ∧ (v :: vs).IsChain (fun a b => |b - a| ≤ inc) ∧
      (v :: vs).getLast (by simp) = min 1 (max 0 (v + (if up then 1 else -1) * (k * inc)))
  | 0, fuel + 1, v, _, h0, h1 => by
    refine ⟨[], ?_, rfl, by simp, by simp, ?_⟩
    · rw [loop, if_neg]
      show ¬ decide ((0 : Rat) < _) = true
      simp
    · simp only [List.getLast_singleton, Nat.cast_zero, zero_mul, mul_zero, add_zero]
      rw [max_eq_right h0, min_eq_right h1]
  | k + 1, fuel + 1, v, hf, h0, h1 => by
    have hpos : (0 : Rat) < ((k + 1 : Nat) : Rat) * inc := by positivity
    generalize hw : min 1 (max 0 (v + (if up then 1 else -1) * inc)) = w
    have w0 : 0 ≤ w := by rw [← hw]; exact le_min (by norm_num) (le_max_left _ _)
    have w1 : w ≤ 1 := by rw [← hw]; exact min_le_left _ _
    obtain ⟨vs, e, hl, hr, hc, hlast⟩ := loop_rat up hi hs0 hs1 k fuel w (by omega) w0 w1
    refine ⟨w :: vs, ?_, by simp [hl], ?_, ?_, ?_⟩
    · rw [loop, if_pos (by show decide ((0 : Rat) < _) = true; exact decide_eq_true hpos), next_rat, hw, res_bind_ok]
      have hd : Arith.sub (((k + 1 : Nat) : Rat) * inc) inc = (k : Rat) * inc := by
        show ((k + 1 : Nat) : Rat) * inc - inc = _
        push_cast; ring
      rw [hd, e]; rfl
    · intro x hx
      rcases List.mem_cons.mp hx with rfl | hx
      · exact ⟨w0, w1⟩
      · exact hr x hx
    · rw [List.isChain_cons_cons]
      refine ⟨?_, hc⟩
      rw [← hw, abs_le]
      cases up <;> simp only [if_true, Bool.false_eq_true, if_false] <;> constructor <;>
        (rcases le_total 0 (v + -1 * inc) with h | h <;> rcases le_total 0 (v + 1 * inc) with h' | h' <;>
         rcases le_total 1 (v + 1 * inc) with h'' | h'' <;> simp [*, max_def, min_def] <;> (try split_ifs) <;> linarith)
    · rw [List.getLast_cons (by simp), hlast, ← hw]
      cases up
      · simp only [Bool.false_eq_true, if_false]
        push_cast
        have hk : 0 ≤ (k : Rat) * inc := by positivity
        rw [min_eq_right (a := (1 : Rat)) (b := max 0 (v + -1 * inc)) (max_le (by norm_num) (by linarith))]
        congr 1
        rcases le_total 0 (v + -1 * inc) with h | h
        · rw [max_eq_right h]; congr 1; ring
        · rw [max_eq_left h, max_eq_left (by linarith), max_eq_left (by linarith)]
      · simp only [if_true]
        push_cast
        have hk : 0 ≤ (k : Rat) * inc := by positivity
        rw [max_eq_right (a := (0 : Rat)) (b := v + 1 * inc) (by linarith)]
        rw [max_eq_right (by linarith : (0:Rat) ≤ v + 1 * ((k + 1) * inc))]
        rcases le_total 1 (v + 1 * inc) with h | h
        · rw [min_eq_left h, max_eq_right (by linarith), min_eq_left (by linarith), min_eq_left (by linarith)]
        · rw [min_eq_right h, max_eq_right (by linarith)]; congr 1; ring
  | _, 0, _, hf, _, _ => absurd hf (by omega)

theorem distance_rat {v s inc : Rat} : distance v s inc = (roundAway (|v - s| / inc) : Rat) * inc := by
  unfold distance
  have ha : (RUnit.fabs (Arith.sub v s) : Rat) = |v - s| := by
    show (if decide (v - s < 0) = true then 0 - (v - s) else v - s) = _
    by_cases h : v - s < 0
    · rw [if_pos (decide_eq_true h), abs_of_neg h, zero_sub]
    · rw [if_neg (by rwa [decide_eq_true_iff]), abs_of_nonneg (not_lt.mp h)]
  rw [ha]
  show (roundAway (|v - s| * (1 / inc)) : Rat) / (1 / inc) = _
  rw [mul_one_div, div_div_eq_mul_div, div_one]

end Fade

/-- C61 in exact arithmetic: fading drives the output through values within [0, 1], by steps of at most the increment, and ends within half an increment
of the setpoint; it ends at the setpoint if the distance is a multiple of the increment, or less than half of it. Missing: other distances
(`C61_end_counterexample`) and the rounding of `float` (`C61_float_counterexample`). -/
theorem C61_exact_partial (b : Build) {fuel : Nat} {v s inc : Rat} (hi : 0 < inc) (hv0 : 0 ≤ v) (hv1 : v ≤ 1) (hs0 : 0 ≤ s) (hs1 : s ≤ 1) (hf : |v - s| / inc + 1 < fuel) :
    ∃ vs, Fade.fadeTo b fuel v s inc = .ok vs ∧ (∀ x ∈ vs, 0 ≤ x ∧ x ≤ 1) ∧ (v :: vs).IsChain (fun a b => |b - a| ≤ inc) ∧
      ∃ last, vs.getLast? = some last ∧ |last - s| ≤ inc / 2 ∧ (|v - s| < inc / 2 → last = s) ∧ ((∃ n : Nat, |v - s| = n * inc) → last = s) := by
  have hok : spnAssert b (Arith.le (fzero : Rat) s && Arith.le s (Arith.ofRat 1)) = .ok () := by
    have : (Arith.le (fzero : Rat) s && Arith.le s (Arith.ofRat 1)) = true := by
      show (decide ((0 : Rat) ≤ s) && decide (s ≤ 1)) = true
      rw [decide_eq_true hs0, decide_eq_true hs1]; rfl
    rw [this]; simp
  have herr := roundAway_err (|v - s| / inc)
  have hd := Fade.distance_rat (v := v) (s := s) (inc := inc)
  have hq : 0 ≤ |v - s| / inc := by positivity
  have hk0 : 0 ≤ roundAway (|v - s| / inc) := by
    have := roundAway_mono hq
    have e : roundAway (0 : Rat) = 0 := by decide +kernel
    omega
  generalize hk : roundAway (|v - s| / inc) = k at *
  obtain ⟨l1, l2⟩ := abs_le.mp herr
  have hmul : |v - s| / inc * inc = |v - s| := by field_simp
  unfold Fade.fadeTo
  rw [hok, res_bind_ok]
  simp only
  rw [hd]
  by_cases hlt : (k : Rat) * inc < inc
  · have hkz : k = 0 := by
      have : (k : Rat) < 1 := by
        by_contra hc
        push Not at hc
        nlinarith
      have : k < 1 := by exact_mod_cast this
      omega
    rw [if_pos (show Arith.lt ((k : Rat) * inc) inc = true from decide_eq_true hlt)]
    subst hkz
    refine ⟨[s], rfl, by simp [hs0, hs1], ?_, s, rfl, by simp; positivity, fun _ => rfl, fun _ => rfl⟩
    rw [List.isChain_cons_cons]
    refine ⟨?_, by simp⟩
    rw [abs_sub_comm]
    push_cast at l1
    nlinarith
  · rw [if_neg (show ¬ Arith.lt ((k : Rat) * inc) inc = true from fun h => hlt (of_decide_eq_true h))]
    push Not at hlt
    have hk1 : 1 ≤ k := by
      by_contra hc
      have : k = 0 := by omega
      subst this
      simp at hlt
      linarith
    obtain ⟨n, rfl⟩ := Int.eq_ofNat_of_zero_le hk0
    have hn : n < fuel := by
      have : ((n : Int) : Rat) < fuel := by linarith
      exact_mod_cast this
    obtain ⟨vs, e, hl, hr, hc, hlast⟩ := Fade.loop_rat (!Arith.lt s v) hi hs0 hs1 n fuel v hn hv0 hv1
    have hne : vs ≠ [] := by
      intro h0; subst h0; simp at hl; omega
    have hrange : ((n : Int) : Rat) = (n : Rat) := by push_cast; rfl
    rw [hrange] at l1 l2 hlt ⊢
    refine ⟨vs, e, hr, hc, vs.getLast hne, List.getLast?_eq_some_getLast hne, ?_⟩
    rw [List.getLast_cons hne] at hlast
    rw [hlast]
    have hdist : |v + (if (!Arith.lt s v) = true then 1 else -1) * (n * inc) - s| = |(n * inc - |v - s| : Rat)| := by
      by_cases hsv : s < v
      · have : (!Arith.lt s v) = false := by
          show (!decide (s < v)) = false
          rw [decide_eq_true hsv]; rfl
        rw [this, if_neg (by simp), abs_of_pos (by linarith : 0 < v - s), ← abs_neg]
        congr 1; ring
      · have : (!Arith.lt s v) = true := by
          show (!decide (s < v)) = true
          rw [decide_eq_false hsv]; rfl
        push Not at hsv
        rw [this, if_pos rfl, abs_of_nonpos (by linarith : v - s ≤ 0)]
        congr 1; ring
    generalize v + (if (!Arith.lt s v) = true then 1 else -1) * (n * inc) = y at *
    have hclamp : |min 1 (max 0 y) - s| ≤ |y - s| := by
      rcases le_total y 0 with h | h
      · rw [max_eq_left h, min_eq_right (by norm_num), abs_of_nonpos (by linarith), abs_of_nonpos (by linarith)]
        linarith
      · rw [max_eq_right h]
        rcases le_total y 1 with h' | h'
        · rw [min_eq_right h']
        · rw [min_eq_left h', abs_of_nonneg (by linarith), abs_of_nonneg (by linarith)]
          linarith
    refine ⟨?_, ?_, ?_⟩
    · refine hclamp.trans ?_
      rw [hdist, abs_le]
      constructor <;> nlinarith
    · intro h
      exfalso
      have : |v - s| / inc < 1 / 2 := by rw [div_lt_iff₀ hi]; linarith
      have : (n : Rat) < 1 := by linarith
      have : (n : Rat) * inc < 1 * inc := mul_lt_mul_of_pos_right this hi
      linarith
    · rintro ⟨m, hm⟩
      have hqm : |v - s| / inc = (m : Int) := by rw [hm]; push_cast; field_simp
      rw [hqm, roundAway_int] at hk
      have : (n : Rat) = m := by
        have : m = n := by exact_mod_cast hk
        rw [this]
      rw [this, ← hm, sub_self, abs_zero] at hdist
      rw [hdist] at hclamp
      have := abs_nonpos_iff.mp hclamp
      linarith

/-- Non-vacuity: from 0.2 to 0.5 by 0.1, and back. -/
example : Fade.fadeTo .debug 10 (1 / 5 : Rat) (1 / 2) (1 / 10) = .ok [3 / 10, 2 / 5, 1 / 2] ∧
    Fade.fadeTo .debug 10 (1 / 2 : Rat) (1 / 5) (1 / 10) = .ok [2 / 5, 3 / 10, 1 / 5] := by decide +kernel

/-- The number is within [0, 1]; false for NaN. -/
def Within (x : Fl) : Prop := Fl.le fzero x = true ∧ Fl.le x (Fl.ofRat 1) = true

theorem clamp_within {x : Fl} (h : x ≠ .nan) {y : Fl} (hy : fclamp x fzero (Fl.ofRat 1) = .ok y) : Within y ∧ y ≠ .nan := by
  have hz : (fzero : Fl) = .num false 0 := by decide +kernel
  have ho : (Fl.ofRat 1) = .num false 1 := by decide +kernel
  unfold fclamp at hy
  rw [hz, ho] at hy
  unfold Within
  rw [hz, ho]
  split at hy
  · cases hy
  · injection hy with hy
    cases x with
    | nan => exact absurd rfl h
    | inf s => cases s <;> simp [Arith.lt, Fl.lt] at hy <;> subst hy <;> decide +kernel
    | num s m =>
      split at hy
      · subst hy; decide +kernel
      · next h0 =>
        split at hy
        · subst hy; decide +kernel
        · next h1 =>
          subst hy
          simp only [Arith.lt, Fl.lt, decide_eq_true_iff, not_lt] at h0 h1
          refine ⟨⟨?_, ?_⟩, by simp⟩
          · simpa [Fl.le] using h0
          · simpa [Fl.le] using h1

theorem Fade.next_within {up : Bool} {v inc y : Fl} (hv : v ≠ .nan) (hi : inc.fin = true) (ho : inc.Ok) (hy : Fade.next up v inc = .ok y) : Within y ∧ y ≠ .nan := by
  refine clamp_within ?_ hy
  cases inc with
  | nan => cases hi
  | inf s => cases hi
  | num s m =>
    have h1 : (Arith.ofRat (if up then 1 else -1) : Fl) = .num (!up) 1 := by cases up <;> decide +kernel
    rw [h1]
    show Fl.add v (Fl.round _ _) ≠ .nan
    have h2 : rnd (1 * m) < pow2 128 := by
      rw [one_mul, ho.2.1]
      exact ho.2.2
    unfold Fl.round
    rw [if_pos h2]
    cases v with
    | nan => exact absurd rfl hv
    | inf t => simp [Fl.add]
    | num t n =>
      simp only [Fl.add, Fl.ofRat, Fl.round]
      split
      · simp
      · split <;> simp

theorem Fade.loop_within {up : Bool} {inc : Fl} (hi : inc.fin = true) (ho : inc.Ok) : ∀ (fuel : Nat) (v diff : Fl) (vs : List Fl), v ≠ .nan →
    Fade.loop up inc fuel v diff = .ok vs → ∀ x ∈ vs, Within x
  | 0, _, _, _, _, h => by cases h
  | fuel + 1, v, diff, vs, hv, h => by
    rw [Fade.loop] at h
    split at h
    · obtain ⟨w, hw, h⟩ := res_bind h
      obtain ⟨rest, hr, h⟩ := res_bind h
      cases h
      obtain ⟨w1, w2⟩ := Fade.next_within hv hi ho hw
      intro x hx
      rcases List.mem_cons.mp hx with rfl | hx
      · exact w1
      · exact Fade.loop_within hi ho fuel w _ rest w2 hr x hx
    · cases h
      simp

theorem Fade.distance_nan {v s inc : Fl} (h : Fade.distance v s inc ≠ .nan) : v ≠ .nan ∧ inc.fin = true := by
  have h1 : (Arith.ofRat 1 : Fl) = .num false 1 := by decide +kernel
  unfold Fade.distance at h
  rw [h1] at h
  constructor
  · rintro rfl
    apply h
    rfl
  · cases inc with
    | num s m => rfl
    | nan =>
      exfalso
      apply h
      show Fl.div (RoundArith.round (Fl.mul (RUnit.fabs (Fl.sub v s)) .nan)) .nan = .nan
      cases RoundArith.round (Fl.mul (RUnit.fabs (Fl.sub v s)) .nan) <;> rfl
    | inf t =>
      exfalso
      apply h
      show Fl.div (RoundArith.round (Fl.mul (RUnit.fabs (Fl.sub v s)) (.num (false != t) 0))) (.num (false != t) 0) = .nan
      cases RUnit.fabs (Fl.sub v s) with
      | nan => rfl
      | inf u => rfl
      | num u m =>
        have h2 : rnd (m * 0) < pow2 128 := by rw [mul_zero, Fl.rnd_zero]; exact pow2_pos _
        simp only [Fl.mul, Fl.round]
        rw [if_pos h2, mul_zero, Fl.rnd_zero]
        simp [RoundArith.round, Fl.div]
        norm_num

/-- C61 with `float`: in debug builds, whatever the values, all values that the output is driven through are within [0, 1]. -/
theorem C61_range {fuel : Nat} {v s inc : Fl} {vs : List Fl} (ho : inc.Ok) (h : Fade.fadeTo .debug fuel v s inc = .ok vs) : ∀ x ∈ vs, Within x := by
  unfold Fade.fadeTo at h
  obtain ⟨u, hu, h⟩ := res_bind h
  simp only at h
  split at h
  · cases h
    have : (Arith.le fzero s && Arith.le s (Arith.ofRat 1)) = true := by
      cases hc : (Arith.le fzero s && Arith.le s (Arith.ofRat 1)) with
      | true => rfl
      | false => rw [hc] at hu; simp at hu
    intro x hx
    rw [List.mem_singleton.mp hx]
    exact (Bool.and_eq_true _ _).mp this
  · by_cases hd : Fade.distance v s inc = .nan
    · rw [hd] at h
      cases fuel with
      | zero => cases h
      | succ n =>
        rw [Fade.loop, if_neg (by show ¬ Fl.lt _ .nan = true; cases (fzero : Fl) <;> simp [Fl.lt])] at h
        cases h
        simp
    · obtain ⟨h1, h2⟩ := Fade.distance_nan hd
      exact Fade.loop_within h2 ho fuel v _ vs h1 h

/-- C61 is false in exact arithmetic already: from 0 to 0.25 by 0.1, the output ends at 0.3. -/
theorem C61_end_counterexample : Fade.fadeTo .debug 10 (0 : Rat) (1 / 4) (1 / 10) = .ok [1 / 10, 1 / 5, 3 / 10] := by decide +kernel

/-- C61 is false with `float`, for the default increment 0.1: from 0 to 0.5, there are six steps, and the output ends at 0.6, as a remainder is left of the distance
after five. -/
theorem C61_float_counterexample : Fade.fadeTo .debug 10 (Fl.ofRat 0) (Fl.ofRat (1 / 2)) (Fl.ofRat (1 / 10)) =
    .ok ([1 / 10, 1 / 5, 3 / 10, 2 / 5, 1 / 2, 3 / 5].map Fl.ofRat) := by decide +kernel

theorem Fade.loop_stuck {up : Bool} {inc diff : Fl} (hd : Arith.lt fzero diff = true) (hs : Arith.sub diff inc = diff) (hn : ∀ v, (Fade.next up v inc) ≠ .error .ub) :
    ∀ (fuel : Nat) (v : Fl), Fade.loop up inc fuel v diff = .error .fuel
  | 0, v => rfl
  | fuel + 1, v => by
    rw [Fade.loop, if_pos hd]
    cases h : Fade.next up v inc with
    | ok w =>
      rw [res_bind_ok]
      rw [hs, Fade.loop_stuck hd hs hn fuel w, res_bind_error]
    | error e =>
      exfalso
      unfold Fade.next fclamp at h
      split at h
      · next hc => revert hc; show Fl.lt _ _ = true → _; decide +kernel
      · cases h

/-- C61 is false for small increments: fading from 0 to 1 by 10^-9 never ends. -/
theorem C61_endless_counterexample (b : Build) (fuel : Nat) : Fade.fadeTo b fuel (Fl.ofRat 0) (Fl.ofRat 1) (Fl.ofRat (1 / 10 ^ 9)) = .error .fuel := by
  have h1 : (Arith.le (fzero : Fl) (Fl.ofRat 1) && Arith.le (Fl.ofRat 1) (Arith.ofRat 1)) = true := by decide +kernel
  unfold Fade.fadeTo
  rw [h1, spnAssert_true, res_bind_ok]
  simp only
  rw [if_neg (by decide +kernel)]
  refine Fade.loop_stuck (by decide +kernel) (by decide +kernel) ?_ fuel _
  intro v h
  unfold Fade.next fclamp at h
  split at h
  · next hc => revert hc; show Fl.lt _ _ = true → _; decide +kernel
  · cases h

/-- C61 is false for an increment of 0: nothing is driven. -/
theorem C61_zero_counterexample (b : Build) (fuel : Nat) : Fade.fadeTo b (fuel + 1) (Fl.ofRat 0) (Fl.ofRat 1) (Fl.ofRat 0) = .ok [] := by
  have h1 : (Arith.le (fzero : Fl) (Fl.ofRat 1) && Arith.le (Fl.ofRat 1) (Arith.ofRat 1)) = true := by decide +kernel
  unfold Fade.fadeTo
  rw [h1, spnAssert_true, res_bind_ok]
  simp only
  rw [if_neg (by decide +kernel), Fade.loop, if_neg (by decide +kernel)]

theorem AnalogueOut.drive_ok {F : Type} [RoundArith F] {b : Build} : ∀ {vs : List F} {a a' : AnalogueOut F}, a.drive b vs = .ok a' → a'.driven = vs.reverse ++ a.driven
  | [], a, a', h => by cases h; rfl
  | v :: vs, a, a', h => by
    rw [AnalogueOut.drive] at h
    obtain ⟨a1, h1, h⟩ := res_bind h
    obtain ⟨u, hu, h1⟩ := res_bind h1
    cases h1
    rw [AnalogueOut.drive_ok h]
    simp

/-- C61 for the object: `fade_to` drives the hardware through the values above, in order, and `value()` reports the setpoint. -/
theorem C61_object {F : Type} [RoundArith F] {b : Build} {fuel : Nat} {a a' : AnalogueOut F} {s inc : F} (h : a.fadeTo b fuel s inc = .ok a') :
    a'.value = s ∧ ∃ vs, Fade.fadeTo b fuel a.value s inc = .ok vs ∧ a'.driven = vs.reverse ++ a.driven := by
  obtain ⟨vs, hv, h⟩ := res_bind h
  obtain ⟨a1, h1, h⟩ := res_bind h
  cases h
  have hd := AnalogueOut.drive_ok h1
  exact ⟨rfl, vs, hv, hd⟩

example : (AnalogueOut.create : AnalogueOut Rat).fadeTo .debug 20 (3 / 10) (1 / 10) = .ok ⟨3 / 10, [3 / 10, 1 / 5, 1 / 10]⟩ := by decide +kernel

/-! ## C94: digital outputs -/

/-- The level of a pin that shows the state `s`. -/
def Shows (activeLow level : Bool) (s : Logical) : Prop := (level = true ↔ (s = .on ↔ activeLow = false))

/-- C94: after any calls, the first of which may be any, the pin has the level of `state()`. -/
theorem C94_level (activeLow : Bool) (cs : List DigitalOut.Call) (h : cs ≠ []) :
    ∃ level, (cs.foldl DigitalOut.call (DigitalOut.create activeLow)).level = some level ∧
      Shows activeLow level (cs.foldl DigitalOut.call (DigitalOut.create activeLow)).active := by
  have gen : ∀ (d : DigitalOut) (cs : List DigitalOut.Call), d.activeLow = activeLow → (cs ≠ [] ∨ ∃ l, d.level = some l ∧ Shows activeLow l d.active) →
      ∃ l, (cs.foldl DigitalOut.call d).level = some l ∧ Shows activeLow l (cs.foldl DigitalOut.call d).active := by
    intro d cs
    induction cs generalizing d with
    | nil =>
      intro _ h
      rcases h with h | h
      · exact absurd rfl h
      · exact h
    | cons c cs ih =>
      intro hd _
      rw [List.foldl_cons]
      have hs : ∀ s, ∃ l, (d.setState s).level = some l ∧ Shows activeLow l (d.setState s).active := by
        intro s
        subst hd
        refine ⟨_, rfl, ?_⟩
        unfold Shows DigitalOut.setState
        cases d.activeLow <;> cases s <;> simp
      cases c with
      | init b => exact ih _ hd (.inr (hs _))
      | setState s => exact ih _ hd (.inr (hs _))
      | setBool b => exact ih _ hd (.inr (hs _))
      | flip => exact ih _ hd (.inr (hs _))
  exact gen _ cs rfl (.inl h)

/-- C94: `state()` is the state last set; `flip` turns `OFF` to `ON` and the others to `OFF`, and flipping twice restores `ON` and `OFF`. -/
theorem C94_state (d : DigitalOut) (s : Logical) (b : Bool) : (d.setState s).active = s ∧ ((d.setBool b).active = .on ↔ b = true) ∧ ((d.setBool b).active = .off ↔ b = false) ∧
    ((d.init b).active = .on ↔ b = true) ∧ (d.flip.active = .on ↔ d.active = .off) ∧ (d.flip.active = .off ↔ d.active ≠ .off) ∧
    (d.active ≠ .undefined → d.flip.flip.active = d.active) := by
  obtain ⟨l, a, lv⟩ := d
  cases b <;> cases a <;> simp [DigitalOut.setState, DigitalOut.setBool, DigitalOut.init, DigitalOut.flip]

example : ([.init true, .flip, .flip, .setState .undefined, .flip, .flip].foldl DigitalOut.call (DigitalOut.create true)) = ⟨true, .on, some false⟩ := by decide

/-! ## C95: analogue outputs -/

/-- Calls on an analogue output through its base. -/
inductive AnalogueOut.Call (F : Type)
  | set (v : F)
  | fade (s inc : F)

def AnalogueOut.call {F : Type} [RoundArith F] (b : Build) (fuel : Nat) (a : AnalogueOut F) : AnalogueOut.Call F → Res (AnalogueOut F)
  | .set v => a.baseSetValue b v
  | .fade s inc => a.fadeTo b fuel s inc

/-- The value asked for. -/
def AnalogueOut.Call.wanted {F : Type} : AnalogueOut.Call F → F
  | .set v => v
  | .fade s _ => s

/-- C95: after calls through the base, `value()` is the value last asked for, and after `set_value` the hardware has it. Missing: `set_value` called on
the implementation (`C95_hidden_counterexample`). -/
theorem C95_value_partial {F : Type} [RoundArith F] {b : Build} {fuel : Nat} {a a' : AnalogueOut F} {cs : List (AnalogueOut.Call F)} {c : AnalogueOut.Call F}
    (h : (cs ++ [c]).foldlM (AnalogueOut.call b fuel) a = .ok a') : a'.value = c.wanted ∧ ∀ v, c = .set v → a'.driven.head? = some v := by
  rw [List.foldlM_append] at h
  obtain ⟨a1, _, h⟩ := res_bind h
  rw [List.foldlM_cons] at h
  obtain ⟨a2, h2, h⟩ := res_bind h
  cases h
  cases c with
  | set v =>
    obtain ⟨u, hu, h2⟩ := res_bind h2
    cases h2
    refine ⟨rfl, ?_⟩
    intro w hw
    cases hw
    rfl
  | fade s inc => exact ⟨(C61_object h2).1, fun w hw => by cases hw⟩

example : ([.set 1, .fade (4 / 5) (1 / 10), .set (1 / 2)] : List (AnalogueOut.Call Rat)).foldlM (AnalogueOut.call .debug 10) AnalogueOut.create =
    .ok ⟨1 / 2, [1 / 2, 4 / 5, 9 / 10, 1]⟩ := by decide +kernel

/-- C95 is false for `set_value` of the implementation, which is what a user of `HAL::AnalogueOutput` calls: `value()` stays as it was. -/
theorem C95_hidden_counterexample {F : Type} [RoundArith F] {b : Build} {a a' : AnalogueOut F} {v : F} (h : a.impSetValue b v = .ok a') :
    a'.value = a.value ∧ a'.driven = v :: a.driven := by
  obtain ⟨u, hu, h⟩ := res_bind h
  cases h
  exact ⟨rfl, rfl⟩

/-- Its consequence: fading an output that is fully on to fully on turns it down to 0.25 first. -/
theorem C95_fade_counterexample : (AnalogueOut.create.impSetValue .debug (1 : Rat) >>= fun a => a.fadeTo .debug 10 1 (1 / 4)) =
    .ok ⟨1, [1, 3 / 4, 1 / 2, 1 / 4, 1]⟩ := by decide +kernel

/-- Multiplying a `float` by a power of two is exact. -/
theorem rnd_mul_pow {q : Rat} (h : rnd q = q) (r : Nat) : rnd (q * 2 ^ r) = q * 2 ^ r := by
  obtain ⟨m, e, hm, he, hq⟩ := rnd_form q
  rw [h] at hq
  have : q * 2 ^ r = m * pow2 (e + r) := by
    rw [hq, pow2_add, pow2_nat]
    push_cast
    ring
  rw [this]
  exact rnd_exact hm (by omega)

/-- C95: what is written to the pin is the wanted fraction of the full scale, up to one unit, from 0 up to 2^resolution. Missing: the greatest number is
outside of the scale (`C95_scale_counterexample`). -/
theorem C95_number_partial {activeLow : Bool} {r : Nat} {v : Fl} (hr : r ≤ 30) (hf : v.fin = true) (ho : v.Ok) (h0 : 0 ≤ v.val) (h1 : v.val ≤ 1) :
    ∃ n, pinNumber activeLow r v = .ok n ∧ 0 ≤ n ∧ n ≤ 2 ^ r ∧
      |(n : Rat) / 2 ^ r - (if activeLow then 1 - v.val else v.val)| ≤ 1 / 2 ^ r + 1 / 2 ^ 24 := by
  have hone : (Fl.ofRat 1).fin = true ∧ (Fl.ofRat 1).val = 1 := by decide +kernel
  have hp : (0 : Rat) < 2 ^ r := by positivity
  have hr' : (2 : Rat) ^ r ≤ 2 ^ 30 := pow_le_pow_right₀ (by norm_num) hr
  have hbig : pow2 128 = 2 ^ 128 := by rw [pow2_eq]; norm_num
  -- the power
  have hpow : rnd (2 ^ r) = 2 ^ r := by
    have := rnd_mul_pow (q := 1) (by simpa using rnd_int (n := 1) (by norm_num)) r
    simpa using this
  obtain ⟨p1, p2⟩ := Fl.ofRat_val (q := 2 ^ r) (by rw [hpow, abs_of_pos hp, hbig]; exact hr'.trans_lt (by norm_num))
  rw [hpow] at p2
  -- the value to write
  have hw : ∃ w : Fl, (if activeLow then Fl.sub (Fl.ofRat 1) v else v) = w ∧ w.fin = true ∧ w.Ok ∧ 0 ≤ w.val ∧ w.val ≤ 1 ∧
      |w.val - (if activeLow then 1 - v.val else v.val)| ≤ 1 / 2 ^ 24 := by
    cases activeLow
    · refine ⟨v, rfl, hf, ho, h0, h1, ?_⟩
      simp
    · have hb : |rnd ((Fl.ofRat 1).val - v.val)| < pow2 128 := by
        rw [hone.2, abs_of_nonneg (rnd_nonneg (by linarith)), hbig]
        have := rnd_mono (by linarith : 1 - v.val ≤ 1)
        have h11 : rnd (1 : Rat) = 1 := by simpa using rnd_int (n := 1) (by norm_num)
        rw [h11] at this
        exact this.trans_lt (by norm_num)
      obtain ⟨s1, s2⟩ := Fl.sub_val hone.1 hf hb
      rw [hone.2] at s2
      refine ⟨Fl.sub (Fl.ofRat 1) v, if_pos rfl, s1, Fl.sub_ok _ _, ?_, ?_, ?_⟩
      · rw [s2]; exact rnd_nonneg (by linarith)
      · rw [s2]
        have := rnd_mono (by linarith : 1 - v.val ≤ 1)
        have h11 : rnd (1 : Rat) = 1 := by simpa using rnd_int (n := 1) (by norm_num)
        rwa [h11] at this
      · rw [s2, if_pos rfl]
        have := rnd_err_le (q := 1 - v.val) (B := 1) (by rw [abs_le]; constructor <;> linarith) le_rfl
        exact this
  obtain ⟨w, ew, wf, wo, w0, w1, we⟩ := hw
  have hx : rnd (w.val * (Fl.ofRat (2 ^ r)).val) = w.val * 2 ^ r := by rw [p2]; exact rnd_mul_pow wo.rnd_val r
  have hxb : 0 ≤ w.val * 2 ^ r ∧ w.val * 2 ^ r ≤ 2 ^ r := ⟨by positivity, by nlinarith⟩
  obtain ⟨m1, m2⟩ := Fl.mul_val wf p1 wo (Fl.ofRat_ok _) (by rw [hx, abs_of_nonneg hxb.1, hbig]; exact (hxb.2.trans hr').trans_lt (by norm_num))
  rw [hx] at m2
  unfold pinNumber
  simp only [ew]
  cases hm : Fl.mul w (Fl.ofRat (2 ^ r)) with
  | nan => rw [hm] at m1; cases m1
  | inf s => rw [hm] at m1; cases m1
  | num s m =>
    rw [hm] at m2
    have hn : (if s then -⌊m⌋ else ⌊m⌋) = ⌊w.val * 2 ^ r⌋ := by
      have hx0 := hxb.1
      generalize w.val * 2 ^ r = X at m2 hx0 ⊢
      cases s with
      | false => simp only [Fl.val, Bool.false_eq_true, if_false] at m2 ⊢; rw [m2]
      | true =>
        simp only [Fl.val, if_true] at m2 ⊢
        have hmo : 0 ≤ m := by
          have := Fl.mul_ok wo (Fl.ofRat_ok (2 ^ r))
          rw [hm] at this
          exact this.1
        have : m = 0 := le_antisymm (by rw [← m2] at hx0; linarith) hmo
        subst this
        rw [← m2]; simp
    have f0 : 0 ≤ ⌊w.val * 2 ^ r⌋ := Int.floor_nonneg.mpr hxb.1
    have f1 : ⌊w.val * 2 ^ r⌋ ≤ 2 ^ r := by
      have := (Int.floor_le (w.val * 2 ^ r)).trans hxb.2
      exact_mod_cast this
    have f2 : (2 : Int) ^ r ≤ 2 ^ 30 := pow_le_pow_right₀ (by norm_num) hr
    refine ⟨⌊w.val * 2 ^ r⌋, ?_, f0, f1, ?_⟩
    · simp only [hn]
      rw [if_pos ⟨by omega, by omega⟩]
    · have g1 := Int.floor_le (w.val * 2 ^ r)
      have g2 := Int.lt_floor_add_one (w.val * 2 ^ r)
      have e : |((⌊w.val * 2 ^ r⌋ : Int) : Rat) / 2 ^ r - w.val| ≤ 1 / 2 ^ r := by
        rw [abs_le]
        constructor
        · rw [← sub_nonneg]
          have : ((⌊w.val * 2 ^ r⌋ : Int) : Rat) / 2 ^ r - w.val - -(1 / 2 ^ r) = ((⌊w.val * 2 ^ r⌋ : Int) + 1 - w.val * 2 ^ r) / 2 ^ r := by field_simp; ring
          rw [this]
          exact div_nonneg (by linarith) hp.le
        · have : ((⌊w.val * 2 ^ r⌋ : Int) : Rat) / 2 ^ r ≤ w.val := by rw [div_le_iff₀ hp]; exact g1
          have : (0 : Rat) ≤ 1 / 2 ^ r := by positivity
          linarith
      obtain ⟨a1, a2⟩ := abs_le.mp e
      obtain ⟨b1, b2⟩ := abs_le.mp we
      rw [abs_le]
      constructor <;> linarith

/-- C95 is false at the end of the scale: for full on (or off, if active on low), 2^resolution is written, one more than the greatest number of that many bits. -/
theorem C95_scale_counterexample : pinNumber false 8 (Fl.ofRat 1) = .ok 256 ∧ pinNumber true 8 (Fl.ofRat 0) = .ok 256 ∧ pinNumber false 31 (Fl.ofRat 1) = .error .ub := by
  decide +kernel

example : pinNumber false 8 (Fl.ofRat (1 / 2)) = .ok 128 ∧ pinNumber true 10 (Fl.ofRat (1 / 4)) = .ok 768 := by decide +kernel

end Spine
