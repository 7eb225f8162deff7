import Verif.Model.FadeTime
import Verif.Props.FadeAccuracy
import Verif.Props.Platform
/-!
# Property C176: how long a fade takes
-/

namespace Spine

open F32

namespace Fade

section
variable {F : Type} [RoundArith F]

/-- The series of values of a fade with the times of their calls: from `t` on, one every `d` ms. -/
def spaced (t d : Int) : List F → List (Int × F)
  | [] => []
  | v :: vs => (t, v) :: spaced (t + d) d vs

theorem spaced_get (d : Int) : ∀ (vs : List F) (t : Int) (i : Nat), (spaced t d vs)[i]? = (vs[i]?).map fun v => (t + i * d, v)
  | [], t, i => by simp [spaced]
  | v :: vs, t, 0 => by simp [spaced]
  | v :: vs, t, i + 1 => by
    simp only [spaced, List.getElem?_cons_succ]
    rw [spaced_get d vs (t + d) i]
    congr 1; funext v; congr 1; push_cast; ring

theorem delay_val {c c' : MockClock} {d : Int} (hd : |d| ≤ 2 ^ 24) (h : c.delayMs d = .ok c') : c' = { c with ms := c.ms + d } := by
  unfold MockClock.delayMs KTime.add at h
  rw [fromOther_small _ hd, res_bind_ok] at h
  unfold i64 at h
  split at h
  · simp only [res_bind_ok, res_pure] at h; cases h; rfl
  · simp at h

theorem delay_small {c : MockClock} {d : Int} (hd : |d| ≤ 2 ^ 24) (hc : |c.ms| ≤ 2 ^ 61) : c.delayMs d = .ok { c with ms := c.ms + d } := by
  unfold MockClock.delayMs KTime.add
  rw [fromOther_small _ hd, res_bind_ok]
  rw [abs_le] at hd hc
  rw [i64, if_pos (by omega)]
  rfl

theorem timedLoop_iff (up : Bool) (inc : F) {d : Int} (hd : |d| ≤ 2 ^ 24) : ∀ (fuel : Nat) (v diff : F) (c c' : MockClock) (log : List (Int × F)),
    timedLoop up inc d fuel v diff c = .ok (log, c') → ∃ vs, loop up inc fuel v diff = .ok vs ∧ log = spaced c.ms d vs ∧ c' = { c with ms := c.ms + vs.length * d }
  | 0, _, _, _, _, _, h => by simp [timedLoop] at h
  | n + 1, v, diff, c, c', log, h => by
    unfold timedLoop at h
    unfold loop
    split at h
    · rename_i hp
      rw [if_pos hp]
      obtain ⟨w, e1, h⟩ := res_bind h
      obtain ⟨c1, e2, h⟩ := res_bind h
      obtain ⟨⟨rest, c2⟩, e3, h⟩ := res_bind h
      cases h
      obtain ⟨vs, e4, rfl, rfl⟩ := timedLoop_iff up inc hd n w _ c1 c' _ e3
      obtain rfl := delay_val hd e2
      refine ⟨w :: vs, by rw [e1, res_bind_ok, e4]; rfl, rfl, ?_⟩
      simp only [List.length_cons, MockClock.mk.injEq, and_true]
      push_cast; ring
    · rename_i hp
      rw [if_neg hp]
      cases h
      exact ⟨[], rfl, rfl, by simp⟩

theorem timedLoop_ok (up : Bool) (inc : F) {d : Int} (hd : |d| ≤ 2 ^ 24) : ∀ (fuel : Nat) (v diff : F) (c : MockClock) (vs : List F), |c.ms| + vs.length * 2 ^ 24 ≤ 2 ^ 61 →
    loop up inc fuel v diff = .ok vs → ∃ log c', timedLoop up inc d fuel v diff c = .ok (log, c')
  | 0, _, _, _, _, _, h => by simp [loop] at h
  | n + 1, v, diff, c, vs, hc, h => by
    unfold loop at h
    unfold timedLoop
    split at h
    · rename_i hp
      rw [if_pos hp]
      obtain ⟨w, e1, h⟩ := res_bind h
      obtain ⟨rest, e2, h⟩ := res_bind h
      cases h
      simp only [List.length_cons] at hc
      push_cast at hc
      have h0 : (0 : Int) ≤ rest.length := Int.natCast_nonneg _
      obtain ⟨log, c', e⟩ := timedLoop_ok up inc hd n w _ { c with ms := c.ms + d } rest (by have := abs_add_le c.ms d; simp only; omega) e2
      exact ⟨(c.ms, w) :: log, c', by rw [e1, res_bind_ok, delay_small hd (by omega), res_bind_ok, e]; rfl⟩
    · rename_i hp
      rw [if_neg hp]
      exact ⟨_, _, rfl⟩

end

/-- How often the loop runs in single precision. -/
theorem loop_count {up : Bool} {inc : Fl} (hi : Unit inc) (hi' : 1 / 512 ≤ inc.val) : ∀ (fuel : Nat) (v diff : Fl) (vs : List Fl), diff.fin = true → -2 ≤ diff.val → diff.val ≤ 2 → loop up inc fuel v diff = .ok vs →
    (vs = [] ∨ (vs.length - 1 : Rat) * (inc.val - 1 / 2 ^ 23) < diff.val) ∧ diff.val ≤ vs.length * (inc.val + 1 / 2 ^ 23)
  | 0, _, _, _, _, _, _, h => by simp [loop] at h
  | n + 1, v, diff, vs, hf, hl, hu, h => by
    obtain ⟨f0, v0⟩ := zero_fl
    unfold loop at h
    have hiff : Arith.lt fzero diff = true ↔ 0 < diff.val := by
      show Fl.lt fzero diff = true ↔ _
      rw [Fl.lt_iff f0 hf, v0]
    split at h
    · rename_i hp
      rw [hiff] at hp
      obtain ⟨w, e1, h⟩ := res_bind h
      obtain ⟨rest, e2, h⟩ := res_bind h
      cases h
      have hB : |diff.val - inc.val| ≤ 2 := by rw [abs_le]; constructor <;> linarith [hi.2.2.2]
      obtain ⟨d1, d2⟩ := Fl.sub_val hf hi.1 (small_lt hB (by norm_num) (by norm_num))
      have he := rnd_err_le hB (by norm_num)
      rw [← d2, abs_le, show (2 : Rat) / 2 ^ 24 = 1 / 2 ^ 23 by norm_num] at he
      have hs : (1 : Rat) / 2 ^ 23 ≤ 1 / 512 := by norm_num
      obtain ⟨k1, k2⟩ := loop_count hi hi' n w (Fl.sub diff inc) rest d1 (by linarith [hi.2.2.2]) (by linarith) e2
      simp only [List.length_cons, Nat.cast_add, Nat.cast_one]
      constructor
      · right
        rcases k1 with rfl | k1
        · simpa using hp
        · linarith
      · linarith
    · rename_i hp
      cases h
      rw [hiff] at hp
      exact ⟨.inl rfl, by simpa using not_lt.mp hp⟩

end Fade

open Fade

/-- **C176**: a fade sets its first value at once and then one every interval; it returns one interval after the last. A fade over less than an increment sets the setpoint and returns at once.
The values are those of `fade_to` without a clock (C61). For intervals of at most 2^24 ms (over four hours), in any arithmetic. -/
theorem C176_steps {F : Type} [RoundArith F] {b : Build} {fuel : Nat} {d : Int} (hd : |d| ≤ 2 ^ 24) {v s inc : F} {c c' : MockClock} {log : List (Int × F)}
    (h : timed b fuel d v s inc c = .ok (log, c')) :
    ∃ vs, fadeTo b fuel v s inc = .ok vs ∧ log.length = vs.length ∧ (∀ i : Nat, log[i]? = (vs[i]?).map fun x => (c.ms + i * d, x)) ∧
      c'.ms = c.ms + (if Arith.lt (distance v s inc) inc then 0 else vs.length * d) ∧ c'.us = c.us := by
  unfold timed at h
  unfold fadeTo
  obtain ⟨u, e, h⟩ := res_bind h
  rw [e, res_bind_ok]
  dsimp only at h ⊢
  split at h
  · rename_i hp
    cases h
    refine ⟨[s], by rw [if_pos hp], rfl, ?_, by rw [if_pos hp, add_zero], rfl⟩
    intro i
    cases i <;> simp
  · rename_i hp
    obtain ⟨vs, e1, rfl, rfl⟩ := timedLoop_iff _ inc hd fuel v _ c c' log h
    refine ⟨vs, by rw [if_neg hp]; exact e1, ?_, spaced_get d vs c.ms, by rw [if_neg hp], rfl⟩
    have : ∀ (vs : List F) (t : Int), (spaced t d vs).length = vs.length := by
      intro vs
      induction vs with
      | nil => intro t; rfl
      | cons v vs ih => intro t; simp [spaced, ih]
    exact this vs c.ms

/-- **C176**, part: in exact arithmetic a fade makes as many steps as there are increments in the distance, to the nearest number, each of one increment towards the setpoint (unless it
meets the end of the scale), and lasts as many intervals. -/
theorem C176_exact_partial (b : Build) {fuel : Nat} {d : Int} (hd : |d| ≤ 2 ^ 24) {v s inc : Rat} (hi : 0 < inc) (hv0 : 0 ≤ v) (hv1 : v ≤ 1) (hs0 : 0 ≤ s) (hs1 : s ≤ 1) {n : Nat}
    (hn : roundAway (|v - s| / inc) = n) (hf : n < fuel) {c : MockClock} (hc : |c.ms| + n * 2 ^ 24 ≤ 2 ^ 61) :
    ∃ log c', timed b fuel d v s inc c = .ok (log, c') ∧ c'.ms - c.ms = n * d ∧ log.length = max 1 n ∧
      ∀ i : Nat, i < n → log[i]? = some (c.ms + i * d, min 1 (max 0 (v + (if s < v then -1 else 1) * ((i + 1) * inc)))) := by
  have hok : spnAssert b (Arith.le (fzero : Rat) s && Arith.le s (Arith.ofRat 1)) = .ok () := by
    have : (Arith.le (fzero : Rat) s && Arith.le s (Arith.ofRat 1)) = true := by
      show (decide ((0 : Rat) ≤ s) && decide (s ≤ 1)) = true
      rw [decide_eq_true hs0, decide_eq_true hs1]; rfl
    rw [this]; simp
  have hdist : distance v s inc = (n : Rat) * inc := by rw [distance_rat, hn]; simp
  unfold timed
  rw [hok, res_bind_ok]
  dsimp only
  rw [hdist]
  rcases Nat.eq_zero_or_pos n with rfl | hpos
  · rw [if_pos (by show decide (((0 : Nat) : Rat) * inc < inc) = true; simpa using hi)]
    exact ⟨_, _, rfl, by simp, rfl, by omega⟩
  · have h1 : (1 : Rat) ≤ n := by exact_mod_cast hpos
    rw [if_neg (by show ¬ decide ((n : Rat) * inc < inc) = true; simp only [decide_eq_true_eq, not_lt]; nlinarith)]
    have hup : (!Arith.lt s v) = decide (¬ s < v) := by show (!decide (s < v)) = _; exact (decide_not).symm
    rw [hup]
    -- the values one by one
    have key : ∀ (up : Bool) (k fuel : Nat) (v : Rat), k < fuel → 0 ≤ v → v ≤ 1 → ∃ vs, loop up inc fuel v (k * inc) = .ok vs ∧ vs.length = k ∧
        ∀ i : Nat, i < k → vs[i]? = some (min 1 (max 0 (v + (if up then 1 else -1) * ((i + 1) * inc)))) := by
      intro up k
      induction k with
      | zero =>
        intro fuel v hf h0 h1
        obtain ⟨fuel, rfl⟩ := Nat.exists_eq_succ_of_ne_zero (by omega : fuel ≠ 0)
        refine ⟨[], ?_, rfl, by omega⟩
        rw [loop, if_neg]
        show ¬ decide ((0 : Rat) < _) = true
        simp
      | succ k ih =>
        intro fuel v hf h0 h1
        obtain ⟨fuel, rfl⟩ := Nat.exists_eq_succ_of_ne_zero (by omega : fuel ≠ 0)
        have hp : (0 : Rat) < ((k + 1 : Nat) : Rat) * inc := by positivity
        have w0 : 0 ≤ min 1 (max 0 (v + (if up then 1 else -1) * inc)) := le_min (by norm_num) (le_max_left _ _)
        have w1 : min 1 (max 0 (v + (if up then 1 else -1) * inc)) ≤ 1 := min_le_left _ _
        obtain ⟨vs, e, hl, hx⟩ := ih fuel _ (by omega) w0 w1
        refine ⟨min 1 (max 0 (v + (if up then 1 else -1) * inc)) :: vs, ?_, by simp [hl], ?_⟩
        · rw [loop, if_pos (by show decide ((0 : Rat) < _) = true; exact decide_eq_true hp), next_rat, res_bind_ok]
          have hd : Arith.sub (((k + 1 : Nat) : Rat) * inc) inc = (k : Rat) * inc := by
            show ((k + 1 : Nat) : Rat) * inc - inc = _
            push_cast; ring
          rw [hd, e]; rfl
        · intro i hik
          cases i with
          | zero => simp
          | succ i =>
            rw [List.getElem?_cons_succ, hx i (by omega)]
            congr 1
            have hi1 : 0 ≤ ((i : Rat) + 1) * inc := by positivity
            cases up
            · simp only [Bool.false_eq_true, if_false]
              push_cast
              rw [min_eq_right (a := (1 : Rat)) (b := max 0 (v + -1 * inc)) (max_le (by norm_num) (by linarith))]
              congr 1
              rcases le_total 0 (v + -1 * inc) with h | h
              · rw [max_eq_right h]; congr 1; ring
              · rw [max_eq_left h, max_eq_left (by linarith), max_eq_left (by linarith)]
            · simp only [if_true]
              push_cast
              rw [max_eq_right (a := (0 : Rat)) (b := v + 1 * inc) (by linarith), max_eq_right (by linarith : (0 : Rat) ≤ v + 1 * (((i : Rat) + 1 + 1) * inc))]
              rcases le_total 1 (v + 1 * inc) with h | h
              · rw [min_eq_left h, max_eq_right (by linarith), min_eq_left (by linarith), min_eq_left (by linarith)]
              · rw [min_eq_right h, max_eq_right (by linarith)]; congr 1; ring
    obtain ⟨vs, e, hl, hx⟩ := key (decide (¬ s < v)) n fuel v hf hv0 hv1
    obtain ⟨log, c', e'⟩ := timedLoop_ok _ inc hd fuel v _ c vs (by rw [hl]; exact hc) e
    obtain ⟨vs', e2, rfl, rfl⟩ := timedLoop_iff _ inc hd fuel v _ c c' log e'
    rw [e] at e2
    cases e2
    refine ⟨_, _, e', by simp [hl], ?_, ?_⟩
    · have : ∀ (vs : List Rat) (t : Int), (spaced t d vs).length = vs.length := by
        intro vs
        induction vs with
        | nil => intro t; rfl
        | cons v vs ih => intro t; simp [spaced, ih]
      rw [this, hl]; omega
    · intro i hin
      rw [spaced_get, hx i hin]
      by_cases hsv : s < v <;> simp [hsv]

/-- **C176**, part: in single precision, for increments of at least 1/512, the number of steps times the increment differs from the distance by no more than one and a half increments and 2^-11: a fade takes no
more than one or two intervals longer, or less long, than it should. -/
theorem C176_float_partial (b : Build) {fuel : Nat} {d : Int} (hd : |d| ≤ 2 ^ 24) {v s inc : Fl} (hv : Fade.Unit v) (hs : Fade.Unit s) (hi : Fade.Unit inc) (hi' : 1 / 512 ≤ inc.val) (hf : 1025 < fuel)
    {c : MockClock} (hc : |c.ms| ≤ 2 ^ 60) :
    ∃ log c' n, timed b fuel d v s inc c = .ok (log, c') ∧ c'.ms - c.ms = n * d ∧ (0 ≤ n) ∧ |(n : Rat) * inc.val - abs (v.val - s.val)| ≤ 3 / 2 * inc.val + 1 / 2 ^ 11 := by
  obtain ⟨f1, v1, o1⟩ := Fade.one_fl
  obtain ⟨f0, v0⟩ := Fade.zero_fl
  have hok : (Arith.le (fzero : Fl) s && Arith.le s (Arith.ofRat 1)) = true := by
    rw [Bool.and_eq_true]
    constructor
    · show Fl.le _ _ = true
      rw [Fl.le_iff f0 hs.1, v0]; exact hs.2.2.1
    · show Fl.le _ (Fl.ofRat 1) = true
      rw [Fl.le_iff hs.1 f1, v1]; exact hs.2.2.2
  obtain ⟨d1, d2, d3, d4⟩ := Fade.distance_fl hv hs hi hi'
  obtain ⟨vs, last, e, -, -⟩ := C61_float_partial b hv hs hi hi' hf
  unfold Fade.fadeTo at e
  unfold timed
  rw [hok, spnAssert_true, res_bind_ok] at e ⊢
  dsimp only at e ⊢
  generalize Fade.distance v s inc = diff at *
  have hip := hi.2.2.1
  have hsm : (1 : Rat) / 2 ^ 14 ≤ 1 / 2 ^ 11 := by norm_num
  rw [abs_le] at d4
  by_cases hlt : Arith.lt diff inc = true
  · rw [if_pos hlt]
    refine ⟨_, _, 0, rfl, by simp, le_refl _, ?_⟩
    rw [show Arith.lt diff inc = Fl.lt diff inc from rfl, Fl.lt_iff d1 hi.1] at hlt
    have := abs_nonneg (v.val - s.val)
    simp only [Int.cast_zero, zero_mul, zero_sub, abs_neg, abs_abs]
    linarith
  · rw [if_neg hlt] at e ⊢
    obtain ⟨k1, k2⟩ := loop_count hi hi' fuel v diff vs d1 (by linarith) d3 e
    rw [show Arith.lt diff inc = Fl.lt diff inc from rfl, Fl.lt_iff d1 hi.1] at hlt
    push Not at hlt
    have hlen : (vs.length : Rat) ≤ 1026 := by
      rcases k1 with rfl | k1
      · simp
      · by_contra hc
        push Not at hc
        have hst : (1 : Rat) / 512 - 1 / 2 ^ 23 ≤ inc.val - 1 / 2 ^ 23 := by linarith
        have hpos : (0 : Rat) < 1 / 512 - 1 / 2 ^ 23 := by norm_num
        have : (1025 : Rat) * (1 / 512 - 1 / 2 ^ 23) ≤ (vs.length - 1) * (inc.val - 1 / 2 ^ 23) := mul_le_mul (by linarith) hst hpos.le (by linarith)
        have : (2 : Rat) < 1025 * (1 / 512 - 1 / 2 ^ 23) := by norm_num
        linarith
    have hlen' : vs.length ≤ 1026 := by exact_mod_cast hlen
    have hroom : |c.ms| + (vs.length : Int) * 2 ^ 24 ≤ 2 ^ 61 := by omega
    obtain ⟨log, c', e'⟩ := timedLoop_ok _ inc hd fuel v _ c vs hroom e
    obtain ⟨vs', e2, rfl, rfl⟩ := timedLoop_iff _ inc hd fuel v _ c c' log e'
    rw [e] at e2
    cases e2
    refine ⟨_, _, vs.length, e', by simp, by omega, ?_⟩
    have h0 : (0 : Rat) ≤ vs.length := Nat.cast_nonneg _
    have hb : (vs.length : Rat) * (1 / 2 ^ 23) ≤ 1026 * (1 / 2 ^ 23) := mul_le_mul_of_nonneg_right hlen (by norm_num)
    have hb' : (1026 : Rat) * (1 / 2 ^ 23) + 1 / 2 ^ 14 ≤ 1 / 2 ^ 11 := by norm_num
    rw [abs_le]
    simp only [Int.cast_natCast]
    constructor
    · linarith
    · rcases k1 with rfl | k1
      · simp only [List.length_nil, Nat.cast_zero, zero_mul, zero_sub]
        have := abs_nonneg (v.val - s.val)
        have : (0 : Rat) ≤ 1 / 2 ^ 11 := by norm_num
        linarith
      · have : (0 : Rat) ≤ 1 / 2 ^ 23 := by norm_num
        linarith

/-- **C176** is false in single precision: with the default increment of 0.1 and interval of 250 ms, fading from 0 to 0.5 takes 1500 ms instead of 1250; it goes on to 0.6. -/
theorem C176_float_counterexample : timed .debug 10 250 (Fl.ofRat 0) (Fl.ofRat (1 / 2)) (Fl.ofRat (1 / 10)) ⟨1000, 0⟩ =
    .ok ([(1000, Fl.ofRat (1 / 10)), (1250, Fl.ofRat (1 / 5)), (1500, Fl.ofRat (3 / 10)), (1750, Fl.ofRat (2 / 5)), (2000, Fl.ofRat (1 / 2)), (2250, Fl.ofRat (3 / 5))], ⟨2500, 0⟩) := by decide +kernel

/-- In exact arithmetic it takes 1250 ms. -/
example : timed .debug 10 250 (0 : Rat) (1 / 2) (1 / 10) ⟨1000, 0⟩ = .ok ([(1000, 1 / 10), (1250, 1 / 5), (1500, 3 / 10), (1750, 2 / 5), (2000, 1 / 2)], ⟨2250, 0⟩) ∧
    roundAway (|(0 : Rat) - 1 / 2| / (1 / 10)) = (5 : Nat) := ⟨by decide +kernel, by decide +kernel⟩

end Spine
