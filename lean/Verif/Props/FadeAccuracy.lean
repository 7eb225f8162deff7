import Verif.Props.Gpio
import Verif.Props.RealUnits
/-!
# C61 in single precision: where fading ends
-/

namespace Spine
open F32 Fl

namespace Fade

/-- A finite float within [0, 1]. -/
def Unit (x : Fl) : Prop := x.fin = true ∧ x.Ok ∧ 0 ≤ x.val ∧ x.val ≤ 1

theorem pow2_big : (2 : Rat) ^ 60 < pow2 128 := by rw [pow2_eq]; norm_num

theorem small_lt {q B : Rat} (hq : |q| ≤ B) (hB : 1 ≤ B) (hB' : B ≤ 2 ^ 40) : |rnd q| < pow2 128 := by
  have h := rnd_err_le hq hB
  have h1 := pow2_big
  rw [abs_le] at h hq
  have : |rnd q| ≤ 2 ^ 50 := by
    rw [abs_le]
    constructor <;> linarith
  linarith

theorem zero_fl : (fzero : Fl).fin = true ∧ (fzero : Fl).val = 0 := ⟨by decide +kernel, by decide +kernel⟩
theorem one_fl : (Fl.ofRat 1).fin = true ∧ (Fl.ofRat 1).val = 1 ∧ (Fl.ofRat 1).Ok := ⟨by decide +kernel, by decide +kernel, ofRat_ok 1⟩

/-- One step: the next value is that of exact arithmetic, up to 2^-23. -/
theorem next_fl (up : Bool) {v inc : Fl} (hv : Unit v) (hi : Unit inc) :
    ∃ w y, next up v inc = .ok w ∧ Unit w ∧ |y - (v.val + (if up then 1 else -1) * inc.val)| ≤ 1 / 2 ^ 23 ∧ w.val = max 0 (min 1 y) := by
  obtain ⟨f1, v1, o1⟩ := one_fl
  obtain ⟨f0, v0⟩ := zero_fl
  obtain ⟨vf, vo, va, vb⟩ := hv
  obtain ⟨jf, jo, ja, jb⟩ := hi
  have hs : (Arith.ofRat (if up then 1 else -1) : Fl).fin = true ∧ (Arith.ofRat (if up then 1 else -1) : Fl).val = (if up then 1 else -1) ∧ (Arith.ofRat (if up then 1 else -1) : Fl).Ok := by
    cases up
    · exact ⟨by decide +kernel, by decide +kernel, ofRat_ok _⟩
    · exact ⟨by decide +kernel, by decide +kernel, ofRat_ok _⟩
  have hj : |(if up then (1 : Rat) else -1) * inc.val| ≤ 1 := by cases up <;> simp <;> rw [abs_le] <;> constructor <;> linarith
  have hr : rnd ((if up then (1 : Rat) else -1) * inc.val) = (if up then (1 : Rat) else -1) * inc.val := by
    cases up
    · simp [rnd_neg, jo.rnd_val]
    · simp [jo.rnd_val]
  obtain ⟨m1, m2⟩ := mul_val hs.1 jf hs.2.2 jo (by rw [hs.2.1]; exact small_lt hj (by norm_num) (by norm_num))
  rw [hs.2.1, hr] at m2
  have hB : |v.val + (if up then (1 : Rat) else -1) * inc.val| ≤ 2 := by rw [abs_le] at hj ⊢; constructor <;> linarith
  obtain ⟨a1, a2⟩ := add_val vf m1 (by rw [m2]; exact small_lt hB (by norm_num) (by norm_num))
  rw [m2] at a2
  have he := rnd_err_le hB (by norm_num)
  rw [← a2] at he
  unfold next fclamp
  have hno : ¬ Arith.lt (Arith.ofRat 1 : Fl) fzero = true := by decide +kernel
  rw [if_neg hno]
  generalize hx : (Arith.add v (Arith.mul (Arith.ofRat (if up then 1 else -1)) inc) : Fl) = x
  have hx' : Fl.add v (Fl.mul (Arith.ofRat (if up then 1 else -1)) inc) = x := hx
  have hxo : x.Ok := by rw [← hx']; exact add_ok _ _
  rw [hx'] at a1 a2 he
  refine ⟨_, x.val, rfl, ?_⟩
  have l0 : Arith.lt x (fzero : Fl) = true ↔ x.val < 0 := by
    have := Fl.lt_iff a1 f0
    rw [v0] at this
    exact this
  have l1 : Arith.lt (Arith.ofRat 1 : Fl) x = true ↔ 1 < x.val := by
    have := Fl.lt_iff f1 a1
    rw [v1] at this
    exact this
  have he' : |x.val - (v.val + (if up then (1 : Rat) else -1) * inc.val)| ≤ 1 / 2 ^ 23 := he.trans (by norm_num)
  by_cases c0 : x.val < 0
  · rw [if_pos (l0.mpr c0)]
    refine ⟨⟨f0, ofRat_ok 0, v0.ge, by rw [v0]; norm_num⟩, he', ?_⟩
    rw [v0, max_eq_left (by rw [min_eq_right (by linarith)]; exact c0.le)]
  · rw [if_neg (fun h => c0 (l0.mp h))]
    by_cases c1 : 1 < x.val
    · rw [if_pos (l1.mpr c1)]
      refine ⟨⟨f1, o1, ?_, v1.le⟩, he', ?_⟩
      · show 0 ≤ (Fl.ofRat 1).val
        rw [v1]; norm_num
      · show (Fl.ofRat 1).val = _
        rw [v1, min_eq_left c1.le, max_eq_right (by norm_num)]
    · rw [if_neg (fun h => c1 (l1.mp h))]
      push Not at c0 c1
      exact ⟨⟨a1, hxo, c0, c1⟩, he', by rw [min_eq_right c1, max_eq_right c0]⟩

/-- How far the setpoint is, in the direction of fading. -/
def ahead (up : Bool) (s v : Rat) : Rat := if up then s - v else v - s

theorem ahead_step {up : Bool} {s v i y w : Rat} (hs0 : 0 ≤ s) (hs1 : s ≤ 1) (hv0 : 0 ≤ v) (hv1 : v ≤ 1) (hi : 1 / 2 ^ 23 ≤ i) (hy : |y - (v + (if up then 1 else -1) * i)| ≤ 1 / 2 ^ 23)
    (hw : w = max 0 (min 1 y)) : ahead up s v - i - 1 / 2 ^ 23 ≤ ahead up s w ∧ ahead up s w ≤ max 0 (ahead up s v - i + 1 / 2 ^ 23) := by
  rw [abs_le] at hy
  unfold ahead
  cases up
  · simp only [Bool.false_eq_true, if_false] at hy ⊢
    have h1 : y ≤ 1 := by linarith
    rw [min_eq_right h1] at hw
    constructor
    · have := hw ▸ le_max_right 0 y
      linarith
    · rcases le_total 0 y with h | h
      · rw [max_eq_right h] at hw
        exact le_max_of_le_right (by linarith)
      · rw [max_eq_left h] at hw
        exact le_max_of_le_left (by linarith)
  · simp only [if_true] at hy ⊢
    have h1 : 0 ≤ y := by linarith
    rw [max_eq_right (le_min (by norm_num) h1)] at hw
    constructor
    · have := hw ▸ min_le_right 1 y
      linarith
    · rcases le_total 1 y with h | h
      · rw [min_eq_left h] at hw
        exact le_max_of_le_left (by linarith)
      · rw [min_eq_right h] at hw
        exact le_max_of_le_right (by linarith)

/-- The loop: it ends, with a value that is about as far from the setpoint as the difference is from the distance, or further by an increment. -/
theorem loop_fl (up : Bool) {s : Rat} {inc : Fl} (hs0 : 0 ≤ s) (hs1 : s ≤ 1) (hi : Unit inc) (hi' : 1 / 2 ^ 23 ≤ inc.val) :
    ∀ (n fuel : Nat) (v diff : Fl) (a : Rat), n < fuel → Unit v → diff.fin = true → -(inc.val + 1 / 2 ^ 23) ≤ diff.val → diff.val ≤ 2 → diff.val ≤ n * (inc.val - 1 / 2 ^ 23) → 0 ≤ a →
      diff.val - inc.val / 2 - a ≤ ahead up s v.val → ahead up s v.val ≤ max 0 (diff.val + inc.val / 2 + a) →
      ∃ vs, loop up inc fuel v diff = .ok vs ∧ |((v :: vs).getLast (by simp)).val - s| ≤ 3 / 2 * inc.val + 1 / 2 ^ 23 + a + n / 2 ^ 22 := by
  obtain ⟨f0, v0⟩ := zero_fl
  intro n
  induction n with
  | zero =>
    intro fuel v diff a hf hv hd hlow hup hn ha h1 h2
    obtain ⟨fuel, rfl⟩ := Nat.exists_eq_succ_of_ne_zero (by omega : fuel ≠ 0)
    have hle : diff.val ≤ 0 := by simpa using hn
    refine ⟨[], ?_, ?_⟩
    · rw [loop, if_neg]
      show ¬ Fl.lt fzero diff = true
      rw [Fl.lt_iff f0 hd, v0]
      linarith
    · rw [List.getLast_singleton]
      have h3 : ahead up s v.val ≤ inc.val / 2 + a := h2.trans (max_le (by have := hi.2.2.1; linarith) (by linarith))
      have h4 : -(3 / 2 * inc.val + 1 / 2 ^ 23 + a) ≤ ahead up s v.val := by linarith
      have hip := hi.2.2.1
      rw [abs_le]
      unfold ahead at h3 h4
      cases up <;> simp only [Bool.false_eq_true, if_false, if_true] at h3 h4 <;> constructor <;> simp <;> linarith
  | succ n ih =>
    intro fuel v diff a hf hv hd hlow hup hn ha h1 h2
    obtain ⟨fuel, rfl⟩ := Nat.exists_eq_succ_of_ne_zero (by omega : fuel ≠ 0)
    have hip := hi.2.2.1
    have hnn : (0 : Rat) ≤ n := Nat.cast_nonneg n
    by_cases hpos : 0 < diff.val
    · obtain ⟨w, y, e1, hw, hy, hwy⟩ := next_fl up hv hi
      obtain ⟨k1, k2⟩ := ahead_step (s := s) hs0 hs1 hv.2.2.1 hv.2.2.2 hi' hy hwy
      have hB : |diff.val - inc.val| ≤ 2 := by rw [abs_le]; constructor <;> linarith [hi.2.2.2]
      obtain ⟨d1, d2⟩ := sub_val hd hi.1 (small_lt hB (by norm_num) (by norm_num))
      have he := rnd_err_le hB (by norm_num)
      rw [← d2, abs_le] at he
      have c : (2 : Rat) / 2 ^ 24 = 1 / 2 ^ 23 := by norm_num
      rw [c] at he
      obtain ⟨vs, e2, hl⟩ := ih fuel w (Fl.sub diff inc) (a + 1 / 2 ^ 22) (by omega) hw d1 (by linarith) (by linarith) (by push_cast at hn; linarith) (by positivity)
        (by norm_num at he ⊢; linarith)
        (by
          refine k2.trans (max_le (le_max_left _ _) ?_)
          rcases le_total 0 (diff.val + inc.val / 2 + a) with h | h
          · rw [max_eq_right h] at h2
            exact le_max_of_le_right (by norm_num at he ⊢; linarith)
          · linarith)
      refine ⟨w :: vs, ?_, ?_⟩
      · rw [loop, if_pos (by show Fl.lt fzero diff = true; rw [Fl.lt_iff f0 hd, v0]; exact hpos), e1, res_bind_ok]
        rw [show (Arith.sub diff inc : Fl) = Fl.sub diff inc from rfl, e2, res_bind_ok]
        rfl
      · rw [List.getLast_cons (by simp)]
        refine hl.trans ?_
        push_cast
        linarith
    · obtain ⟨vs, e2, hl⟩ := ih (fuel + 1) v diff a (by omega) hv hd hlow hup (by push Not at hpos; nlinarith) ha h1 h2
      refine ⟨vs, e2, hl.trans ?_⟩
      push_cast
      linarith

theorem round_fl {x : Fl} (hf : x.fin = true) (ho : x.Ok) (h0 : 0 ≤ x.val) (h1 : x.val ≤ 2 ^ 20) :
    (RoundArith.round x).fin = true ∧ (RoundArith.round x).Ok ∧ (RoundArith.round x).val = (⌊x.val + 1 / 2⌋ : Int) := by
  cases x with
  | nan => cases hf
  | inf s => cases hf
  | num t m =>
    have hv : (Fl.num t m).val = m := by
      cases t
      · rfl
      · have h2 : (Fl.num true m).val = -m := rfl
        have : m = 0 := le_antisymm (by rw [h2] at h0; linarith) ho.1
        rw [h2, this, neg_zero]
    rw [hv] at h0 h1 ⊢
    have hk0 : 0 ≤ ⌊m + 1 / 2⌋ := Int.floor_nonneg.mpr (by linarith)
    have hk1 : ⌊m + 1 / 2⌋ ≤ 2 ^ 21 := by
      have : (⌊m + 1 / 2⌋ : Rat) ≤ 2 ^ 21 := (Int.floor_le _).trans (by linarith)
      exact_mod_cast this
    have hk1' : (⌊m + 1 / 2⌋ : Rat) ≤ 2 ^ 21 := by exact_mod_cast hk1
    have hk0' : (0 : Rat) ≤ ⌊m + 1 / 2⌋ := by exact_mod_cast hk0
    refine ⟨rfl, ⟨hk0', rnd_int (by rw [abs_of_nonneg hk0]; omega), ?_⟩, ?_⟩
    · have := pow2_big; linarith
    · cases t
      · rfl
      · have h2 : (Fl.num true m).val = -m := rfl
        rw [h2] at hv
        have : m = 0 := by linarith
        subst this
        show -((⌊(0 : Rat) + 1 / 2⌋ : Int) : Rat) = _
        norm_num

/-- The difference that the loop counts down is the distance, up to half an increment and 2^-14. -/
theorem distance_fl {v s inc : Fl} (hv : Unit v) (hs : Unit s) (hi : Unit inc) (hi' : 1 / 512 ≤ inc.val) :
    (distance v s inc).fin = true ∧ 0 ≤ (distance v s inc).val ∧ (distance v s inc).val ≤ 2 ∧ |(distance v s inc).val - abs (v.val - s.val)| ≤ inc.val / 2 + 1 / 2 ^ 14 := by
  obtain ⟨f1, v1, o1⟩ := one_fl
  obtain ⟨vf, vo, va, vb⟩ := hv
  obtain ⟨sf, so, sa, sb⟩ := hs
  obtain ⟨jf, jo, ja, jb⟩ := hi
  have hi0 : 0 < inc.val := by linarith
  -- the number of increments in one
  have q0 : 1 ≤ 1 / inc.val := by rw [le_div_iff₀ hi0]; linarith
  have q1 : 1 / inc.val ≤ 512 := by rw [div_le_iff₀ hi0]; linarith
  obtain ⟨df, dv⟩ := div_val f1 jf o1 jo hi0.ne' (by rw [v1]; exact small_lt (B := 512) (by rw [abs_of_nonneg (by linarith)]; exact q1) (by norm_num) (by norm_num))
  rw [v1] at dv
  have de : |rnd (1 / inc.val) - 1 / inc.val| ≤ (1 / inc.val) / 2 ^ 24 := by
    have := rnd_err (q := 1 / inc.val) (by
      rw [abs_of_nonneg (by linarith)]
      have : pow2 (-126) ≤ 1 := by rw [pow2_eq]; norm_num
      linarith)
    rwa [abs_of_nonneg (a := 1 / inc.val) (by linarith)] at this
  rw [← dv] at de
  have d1 : 1 ≤ (Fl.div (Fl.ofRat 1) inc).val := by
    have := rnd_mono q0
    rw [dv]
    have e : rnd 1 = 1 := by simpa using rnd_int (n := 1) (by norm_num)
    rwa [e] at this
  have d2 : (Fl.div (Fl.ofRat 1) inc).val ≤ 512 := by
    have := rnd_mono q1
    rw [dv]
    have e : rnd 512 = 512 := by simpa using rnd_int (n := 512) (by norm_num)
    rwa [e] at this
  have dok := div_ok o1 jo
  -- the distance
  have bq : |v.val - s.val| ≤ 1 := by rw [abs_le]; constructor <;> linarith
  obtain ⟨bf, bv⟩ := sub_val vf sf (small_lt bq (by norm_num) (by norm_num))
  have be := rnd_err_le bq (by norm_num)
  obtain ⟨af, av, ao⟩ := fabs_val bf (sub_ok v s)
  rw [bv] at av
  have a1 : |rnd (v.val - s.val)| ≤ 1 := by
    have := rnd_mono bq
    have e : rnd 1 = 1 := by simpa using rnd_int (n := 1) (by norm_num)
    rwa [e, Fl.rnd_abs] at this
  have ae : |(|rnd (v.val - s.val)| - |v.val - s.val|)| ≤ 1 / 2 ^ 24 := (abs_abs_sub_abs_le_abs_sub _ _).trans be
  rw [← av] at a1 ae
  have a0 : 0 ≤ (RUnit.fabs (Fl.sub v s) : Fl).val := by rw [av]; exact abs_nonneg _
  unfold distance
  rw [show (Arith.ofRat 1 : Fl) = Fl.ofRat 1 from rfl, show (Arith.div (Fl.ofRat 1) inc : Fl) = Fl.div (Fl.ofRat 1) inc from rfl, show (Arith.sub v s : Fl) = Fl.sub v s from rfl]
  generalize Fl.div (Fl.ofRat 1) inc = d at *
  generalize (RUnit.fabs (Fl.sub v s) : Fl) = x at *
  generalize |v.val - s.val| = q at *
  show (Fl.div (RoundArith.round (Fl.mul x d)) d).fin = true ∧ 0 ≤ (Fl.div (RoundArith.round (Fl.mul x d)) d).val ∧ (Fl.div (RoundArith.round (Fl.mul x d)) d).val ≤ 2 ∧ |(Fl.div (RoundArith.round (Fl.mul x d)) d).val - q| ≤ inc.val / 2 + 1 / 2 ^ 14
  -- the distance in increments
  have p0 : 0 ≤ x.val * d.val := mul_nonneg a0 (by linarith)
  have p1 : x.val * d.val ≤ 512 := by nlinarith
  have pb : |x.val * d.val| ≤ 512 := by rwa [abs_of_nonneg p0]
  obtain ⟨pf, pv⟩ := mul_val af df ao dok (small_lt pb (by norm_num) (by norm_num))
  have pe := rnd_err_le pb (by norm_num)
  have pok := mul_ok ao dok
  have p2 : 0 ≤ (Fl.mul x d).val := by rw [pv]; exact rnd_nonneg p0
  rw [← pv, abs_le] at pe
  obtain ⟨kf, ko, kv⟩ := round_fl pf pok p2 (by linarith)
  generalize Fl.mul x d = p at *
  have k1 := Int.floor_le (p.val + 1 / 2)
  have k2 := Int.lt_floor_add_one (p.val + 1 / 2)
  have k0 : (0 : Rat) ≤ (⌊p.val + 1 / 2⌋ : Int) := by exact_mod_cast Int.floor_nonneg.mpr (by linarith)
  rw [← kv] at k0 k1 k2
  generalize RoundArith.round p = k at *
  -- and back
  have hd0 : 0 < d.val := by linarith
  have r1 : 1 / d.val ≤ inc.val * (1 + 1 / 2 ^ 23) := by
    rw [div_le_iff₀ hd0]
    rw [abs_le] at de
    have h3 : (1 / inc.val) * (1 - 1 / 2 ^ 24) ≤ d.val := by linarith
    have h4 : inc.val * (1 / inc.val) = 1 := by field_simp
    calc (1 : Rat) ≤ (1 + 1 / 2 ^ 23) * (1 - 1 / 2 ^ 24) := by norm_num
      _ = inc.val * (1 + 1 / 2 ^ 23) * ((1 / inc.val) * (1 - 1 / 2 ^ 24)) := by field_simp
      _ ≤ inc.val * (1 + 1 / 2 ^ 23) * d.val := by gcongr
  have r2 : |k.val / d.val - x.val| ≤ inc.val / 2 + 1 / 2 ^ 15 + 1 / 2 ^ 22 := by
    have e : k.val / d.val - x.val = (k.val - x.val * d.val) * (1 / d.val) := by field_simp
    have h3 : |k.val - x.val * d.val| ≤ 1 / 2 + 1 / 2 ^ 15 := by rw [abs_le]; constructor <;> norm_num at pe ⊢ <;> linarith
    rw [e, abs_mul, abs_of_nonneg (a := 1 / d.val) (by positivity)]
    calc |k.val - x.val * d.val| * (1 / d.val) ≤ (1 / 2 + 1 / 2 ^ 15) * (inc.val * (1 + 1 / 2 ^ 23)) := by gcongr
      _ ≤ _ := by norm_num; linarith
  have r3 : 0 ≤ k.val / d.val := by positivity
  have r4 : k.val / d.val ≤ 2 := by rw [abs_le] at r2; norm_num at r2 ⊢; linarith
  have rb : |k.val / d.val| ≤ 2 := by rwa [abs_of_nonneg r3]
  obtain ⟨gf, gv⟩ := div_val kf df ko dok hd0.ne' (small_lt rb (by norm_num) (by norm_num))
  have ge := rnd_err_le rb (by norm_num)
  rw [← gv] at ge
  refine ⟨gf, by rw [gv]; exact rnd_nonneg r3, ?_, ?_⟩
  · rw [gv]
    have := rnd_mono r4
    have e : rnd 2 = 2 := by simpa using rnd_int (n := 2) (by norm_num)
    rwa [e] at this
  · rw [abs_le] at *
    norm_num at *
    constructor <;> linarith

end Fade

/-- **C61 (partial)**, in single precision: fading by an increment from 1/512 to 1 ends after at most 1025 steps, and not further from the setpoint than one and a half increments and 2^-11. Missing: it need not
end at the setpoint (`C61_float_counterexample`), and for smaller increments it need not end at all (`C61_endless_counterexample`). -/
theorem C61_float_partial (b : Build) {fuel : Nat} {v s inc : Fl} (hv : Fade.Unit v) (hs : Fade.Unit s) (hi : Fade.Unit inc) (hi' : 1 / 512 ≤ inc.val) (hf : 1025 < fuel) :
    ∃ vs last, Fade.fadeTo b fuel v s inc = .ok vs ∧ vs.getLast? = some last ∧ |last.val - s.val| ≤ 3 / 2 * inc.val + 1 / 2 ^ 11 := by
  obtain ⟨f1, v1, o1⟩ := Fade.one_fl
  obtain ⟨f0, v0⟩ := Fade.zero_fl
  have hok : (Arith.le (fzero : Fl) s && Arith.le s (Arith.ofRat 1)) = true := by
    rw [Bool.and_eq_true]
    constructor
    · show Fl.le _ _ = true
      rw [Fl.le_iff f0 hs.1, v0]; exact hs.2.2.1
    · show Fl.le _ (Fl.ofRat 1) = true
      rw [Fl.le_iff hs.1 f1, v1]; exact hs.2.2.2
  unfold Fade.fadeTo
  rw [hok, spnAssert_true, res_bind_ok]
  simp only
  obtain ⟨d1, d2, d3, d4⟩ := Fade.distance_fl hv hs hi hi'
  generalize Fade.distance v s inc = diff at *
  by_cases hlt : Arith.lt diff inc = true
  · refine ⟨[s], s, ?_, rfl, ?_⟩
    · rw [if_pos hlt]
    · rw [sub_self, abs_zero]
      have := hi.2.2.1
      positivity
  · rw [if_neg hlt]
    rw [show Arith.lt diff inc = Fl.lt diff inc from rfl, Fl.lt_iff d1 hi.1] at hlt
    push Not at hlt
    have hdir : Fade.ahead (!Arith.lt s v) s.val v.val = |v.val - s.val| := by
      unfold Fade.ahead
      have h1 : Arith.lt s v = true ↔ s.val < v.val := Fl.lt_iff hs.1 hv.1
      by_cases h : s.val < v.val
      · rw [h1.mpr h]
        simp only [Bool.not_true, Bool.false_eq_true, if_false]
        rw [abs_of_pos (by linarith)]
      · have h2 : Arith.lt s v = false := by
          cases hc : Arith.lt s v with
          | false => rfl
          | true => exact absurd (h1.mp hc) h
        rw [h2]
        push Not at h
        simp only [Bool.not_false, if_true]
        rw [abs_of_nonpos (by linarith)]
        ring
    rw [abs_le] at d4
    have hip := hi.2.2.1
    obtain ⟨vs, e, hl⟩ := Fade.loop_fl (!Arith.lt s v) hs.2.2.1 hs.2.2.2 hi (by norm_num at hi' ⊢; linarith) 1025 fuel v diff (1 / 2 ^ 14) hf hv d1 (by linarith [show (0:Rat) ≤ 1 / 2 ^ 23 by norm_num]) d3
      (by norm_num at hi' ⊢; linarith) (by norm_num) (by rw [hdir]; linarith) (by rw [hdir]; exact le_max_of_le_right (by linarith))
    cases vs with
    | nil =>
      exfalso
      obtain ⟨fuel, rfl⟩ := Nat.exists_eq_succ_of_ne_zero (by omega : fuel ≠ 0)
      rw [Fade.loop, if_pos (by show Fl.lt fzero diff = true; rw [Fl.lt_iff f0 d1, v0]; norm_num at hi'; linarith)] at e
      obtain ⟨w, _, e⟩ := res_bind e
      obtain ⟨r, _, e⟩ := res_bind e
      cases e
    | cons w ws =>
      refine ⟨w :: ws, (w :: ws).getLast (by simp), e, List.getLast?_eq_some_getLast _, ?_⟩
      rw [List.getLast_cons (by simp)] at hl
      refine hl.trans ?_
      norm_num
      linarith

/-- The default increment meets the hypotheses. -/
example : Fade.Unit (Fl.ofRat (1 / 10)) ∧ 1 / 512 ≤ (Fl.ofRat (1 / 10)).val := ⟨⟨by decide +kernel, ofRat_ok _, by decide +kernel, by decide +kernel⟩, by decide +kernel⟩

end Spine
