import Mathlib.Data.List.TakeWhile
import Verif.Props.Gpio
import Verif.Props.Result
import Verif.Props.RealUnits
import Verif.Props.Scaling
import Verif.Props.LineLoops
/-!
# Exactly when the partial claims hold, continued

C61, C87, C89, C91, C127 and C137 are false of the code for some inputs. Here each of them is shown to hold for exactly the inputs named.
-/

namespace Spine

section fade
open Fade F32

theorem roundAway_lt {x : Rat} (h : 0 ≤ x) : x < roundAway x + 1 / 2 := by
  rw [roundAway, if_pos h]
  have := Int.lt_floor_add_one (x + 1 / 2)
  linarith

/-- **C61, exactly,** in exact arithmetic: fading ends at the setpoint iff the distance is less than half an increment, or a whole number of increments, or the setpoint is 0 or 1
and the last step leads past it. -/
theorem C61_exact (b : Build) {fuel : Nat} {v s inc : Rat} (hi : 0 < inc) (hv0 : 0 ≤ v) (hv1 : v ≤ 1) (hs0 : 0 ≤ s) (hs1 : s ≤ 1) (hf : |v - s| / inc + 1 < fuel) :
    ∃ vs last, Fade.fadeTo b fuel v s inc = .ok vs ∧ vs.getLast? = some last ∧
      (last = s ↔ |v - s| < inc / 2 ∨ (∃ n : Nat, |v - s| = n * inc) ∨ ((s = 0 ∨ s = 1) ∧ ∃ n : Nat, n * inc - inc / 2 ≤ |v - s| ∧ |v - s| ≤ n * inc)) := by
  have hok : spnAssert b (Arith.le (fzero : Rat) s && Arith.le s (Arith.ofRat 1)) = .ok () := by
    have : (Arith.le (fzero : Rat) s && Arith.le s (Arith.ofRat 1)) = true := by
      show (decide ((0 : Rat) ≤ s) && decide (s ≤ 1)) = true
      rw [decide_eq_true hs0, decide_eq_true hs1]; rfl
    rw [this]; simp
  have hq : 0 ≤ |v - s| / inc := by positivity
  have herr := roundAway_err (|v - s| / inc)
  have hup := roundAway_lt hq
  have hd := Fade.distance_rat (v := v) (s := s) (inc := inc)
  have hk0 : 0 ≤ roundAway (|v - s| / inc) := by
    have := roundAway_mono hq
    have e : roundAway (0 : Rat) = 0 := by decide +kernel
    omega
  generalize hk : roundAway (|v - s| / inc) = k at *
  obtain ⟨l1, l2⟩ := abs_le.mp herr
  have hmul : |v - s| / inc * inc = |v - s| := by field_simp
  unfold Fade.fadeTo
  rw [hok, res_bind_ok]
  simp only
  rw [hd]
  by_cases hlt : (k : Rat) * inc < inc
  · have hkz : k = 0 := by
      have : (k : Rat) < 1 := by
        by_contra hc
        push Not at hc
        nlinarith
      have : k < 1 := by exact_mod_cast this
      omega
    rw [if_pos (show Arith.lt ((k : Rat) * inc) inc = true from decide_eq_true hlt)]
    subst hkz
    refine ⟨[s], s, rfl, rfl, ⟨fun _ => .inl ?_, fun _ => rfl⟩⟩
    push_cast at hup
    nlinarith
  · rw [if_neg (show ¬ Arith.lt ((k : Rat) * inc) inc = true from fun h => hlt (of_decide_eq_true h))]
    push Not at hlt
    have hk1 : 1 ≤ k := by
      by_contra hc
      have : k = 0 := by omega
      subst this
      simp at hlt
      linarith
    obtain ⟨n, rfl⟩ := Int.eq_ofNat_of_zero_le hk0
    have hn1 : (1 : Rat) ≤ n := by exact_mod_cast hk1
    have hn : n < fuel := by
      have : ((n : Int) : Rat) < fuel := by linarith
      exact_mod_cast this
    obtain ⟨vs, e, hl, hr, hc, hlast⟩ := Fade.loop_rat (!Arith.lt s v) hi hs0 hs1 n fuel v hn hv0 hv1
    have hne : vs ≠ [] := by
      intro h0; subst h0; simp at hl; omega
    have hrange : ((n : Int) : Rat) = (n : Rat) := by push_cast; rfl
    rw [hrange] at l1 l2 hlt hup ⊢
    refine ⟨vs, vs.getLast hne, e, List.getLast?_eq_some_getLast hne, ?_⟩
    rw [List.getLast_cons hne] at hlast
    rw [hlast]
    have hlow : n * inc - inc / 2 ≤ |v - s| := by nlinarith
    have hhigh : |v - s| < n * inc + inc / 2 := by nlinarith
    have hni : 0 ≤ (n : Rat) * inc := by positivity
    have hhalf : ¬ |v - s| < inc / 2 := by
      intro h
      nlinarith
    have hwhole : (∃ m : Nat, |v - s| = m * inc) → |v - s| = n * inc := by
      rintro ⟨m, hm⟩
      have h1 : (m : Rat) < n + 1 := by nlinarith
      have h2 : (n : Rat) < m + 1 := by nlinarith
      have h1' : m < n + 1 := by exact_mod_cast h1
      have h2' : n < m + 1 := by exact_mod_cast h2
      rw [hm, show m = n by omega]
    have hpast : (∃ m : Nat, m * inc - inc / 2 ≤ |v - s| ∧ |v - s| ≤ m * inc) → |v - s| ≤ n * inc := by
      rintro ⟨m, hm, hm'⟩
      have h1 : (m : Rat) < n + 1 := by nlinarith
      have h1' : m < n + 1 := by exact_mod_cast h1
      have : (m : Rat) ≤ n := by exact_mod_cast Nat.lt_succ_iff.mp h1'
      nlinarith
    by_cases hsv : s < v
    · have hup' : (!Arith.lt s v) = false := by
        show (!decide (s < v)) = false
        rw [decide_eq_true hsv]; rfl
      rw [hup', if_neg (by simp)]
      rw [abs_of_pos (by linarith : 0 < v - s)] at *
      constructor
      · intro h
        rcases lt_trichotomy (v - s) (n * inc) with h3 | h3 | h3
        · refine .inr (.inr ⟨.inl ?_, n, hlow, h3.le⟩)
          by_contra h0
          have hpos : 0 < s := lt_of_le_of_ne hs0 (Ne.symm h0)
          rcases le_total (v + -1 * (n * inc)) 0 with h4 | h4
          · rw [max_eq_left h4, min_eq_right (by norm_num)] at h; linarith
          · rw [max_eq_right h4, min_eq_right (by linarith)] at h; linarith
        · exact .inr (.inl ⟨n, h3⟩)
        · exfalso
          rw [max_eq_right (by linarith), min_eq_right (by linarith)] at h; linarith
      · rintro (h | h | ⟨h, h'⟩)
        · exact absurd h hhalf
        · have := hwhole h
          rw [max_eq_right (by linarith), min_eq_right (by linarith)]; linarith
        · rcases h with h | h
          · have := hpast h'
            rw [max_eq_left (by linarith), min_eq_right (by norm_num)]; exact h.symm
          · linarith
    · have hup' : (!Arith.lt s v) = true := by
        show (!decide (s < v)) = true
        rw [decide_eq_false hsv]; rfl
      push Not at hsv
      rw [hup', if_pos rfl]
      rw [abs_of_nonpos (by linarith : v - s ≤ 0)] at *
      constructor
      · intro h
        rcases lt_trichotomy (-(v - s)) (n * inc) with h3 | h3 | h3
        · refine .inr (.inr ⟨.inr ?_, n, hlow, h3.le⟩)
          by_contra h0
          have hpos : s < 1 := lt_of_le_of_ne hs1 h0
          rw [max_eq_right (by linarith)] at h
          rcases le_total (v + 1 * (n * inc)) 1 with h4 | h4
          · rw [min_eq_right h4] at h; linarith
          · rw [min_eq_left h4] at h; linarith
        · exact .inr (.inl ⟨n, h3⟩)
        · exfalso
          rw [max_eq_right (by linarith), min_eq_right (by linarith)] at h; linarith
      · rintro (h | h | ⟨h, h'⟩)
        · exact absurd h hhalf
        · have := hwhole h
          rw [max_eq_right (by linarith), min_eq_right (by linarith)]; linarith
        · rcases h with h | h
          · exfalso
            have : v = 0 := by linarith
            apply hhalf
            rw [this, h]; simp; linarith
          · have := hpast h'
            rw [max_eq_right (by linarith), min_eq_left (by linarith)]; exact h.symm

/-- From 0.75 to 1 in steps of 0.1 the last step leads past 1 and is cut off; from 0 to 0.75 it is not. -/
example : Fade.fadeTo .debug 10 (3 / 4 : Rat) 1 (1 / 10) = .ok [17 / 20, 19 / 20, 1] ∧ (Fade.fadeTo .debug 10 (0 : Rat) (3 / 4) (1 / 10)).map List.getLast? = .ok (some (4 / 5)) := by
  decide +kernel

end fade

section result
open Result
variable {S : Types} {t e i : S.Code}

/-- **C87, exactly.** Copies of all results are equal to the original iff `E` is `T` or `bool` does not convert to `E`; all results constructed from a variable are successes iff
`E` is `T` or `T` does not convert to `E`. (`T` has a value.) -/
theorem C87_exact (x : S.El t) :
    ((∀ r : Result S t e i, r.copy = r) ↔ e = t ∨ S.ofBool e = none) ∧
      ((∀ y : S.El t, (ofVariable y : Result S t e i) = success y) ↔ e = t ∨ S.conv t e = none) := by
  refine ⟨⟨fun h => ?_, fun h r => C87_copy_partial h r⟩, ⟨fun h => ?_, fun h y => C87_value_partial h y⟩⟩
  · by_cases he : e = t
    · exact .inl he
    · refine .inr ?_
      cases hf : S.ofBool e with
      | none => rfl
      | some f =>
        have h1 := (C87_copy_counterexample he hf .debug (success x : Result S t e i)).1
        rw [h] at h1
        cases h1
  · by_cases he : e = t
    · exact .inl he
    · refine .inr ?_
      cases hf : S.conv t e with
      | none => rfl
      | some f =>
        have h1 := (C87_value_counterexample (i := i) he hf .debug x).1
        rw [h] at h1
        cases h1

end result

section compound
open Compound

/-- **C89, exactly,** in exact arithmetic: `<` of compound units with the magnitudes `mn / md` and `on / od` compares the quantities, whatever the values, iff these ratios are equal. -/
theorem C89_exact {mn md on od : Rat} (h1 : 0 < mn) (h2 : 0 < md) (h3 : 0 < on) (h4 : 0 < od) :
    (∀ (a b : Compound Rat) (qa qb : Rat), Quantity mn md a qa → Quantity on od b qb → Compound.lt a b = .ok (decide (qa < qb))) ↔ mn / md = on / od := by
  refine ⟨fun h => ?_, fun hr a b qa qb ha hb => (C89_order_partial h1 h2 h4 hr ha hb).1⟩
  have key : ∀ x : Rat, Compound.lt ⟨x, 1⟩ ⟨x, 1⟩ = .ok (decide (x * (mn / md) < x * (on / od))) := fun x =>
    h ⟨x, 1⟩ ⟨x, 1⟩ _ _ ⟨by simp, by simp; field_simp⟩ ⟨by simp, by simp; field_simp⟩
  have hp := key 1
  have hm := key (-1)
  have e1 : Compound.lt (⟨1, 1⟩ : Compound Rat) ⟨1, 1⟩ = .ok false := by decide +kernel
  have e2 : Compound.lt (⟨-1, 1⟩ : Compound Rat) ⟨-1, 1⟩ = .ok false := by decide +kernel
  rw [e1] at hp
  rw [e2] at hm
  have hp' : ¬ (1 * (mn / md) < 1 * (on / od)) := of_decide_eq_false (Except.ok.inj hp).symm
  have hm' : ¬ (-1 * (mn / md) < -1 * (on / od)) := of_decide_eq_false (Except.ok.inj hm).symm
  linarith

end compound

section times
open RUnit

/-- **C91, exactly.** `to_kernel_time` gives the least whole number of units that is not less than the time if that is a 64-bit number, and is undefined otherwise. -/
theorem C91_exact (t : Fl) : toKernelTime t = if t.fin = true ∧ -2 ^ 63 ≤ ⌈t.val⌉ ∧ ⌈t.val⌉ < 2 ^ 63 then .ok ⌈t.val⌉ else .error .ub := by
  cases t with
  | nan => rfl
  | inf s => rfl
  | num s m =>
    have e : toKernelTime (.num s m) = i64 ⌈(Fl.num s m).val⌉ := by
      cases s with
      | true =>
        rw [toKernelTime, ceil, toTime]
        simp [Fl.val, Int.ceil_neg]
      | false =>
        rw [toKernelTime, ceil, toTime]
        simp [Fl.val]
    rw [e, i64]
    simp [Fl.fin]

/-- **C127, exactly.** The product is right iff it fits; the quotient is right iff the time is not negative, the count is 1 or the count exceeds the time taken modulo 2^64. -/
theorem C127_exact {v : Int} (hv : InI64 v) {n : Nat} (hn : 0 < n) :
    (KTime.mulUnsigned v n = .ok (v * n) ↔ InI64 (v * n)) ∧ (KTime.divUnsigned v n = .ok (v.tdiv n) ↔ 0 ≤ v ∨ n = 1 ∨ v + 2 ^ 64 < n) := by
  constructor
  · constructor
    · intro h
      have h' := Except.ok.inj h
      rw [← h']
      unfold KTime.signed InI64
      split <;> omega
    · exact (C127_count_partial hv n).1
  · have hne : n ≠ 0 := by omega
    rw [KTime.divUnsigned, if_neg hne]
    unfold InI64 at hv
    by_cases h0 : 0 ≤ v
    · refine ⟨fun _ => .inl h0, fun _ => ?_⟩
      have := (C127_count_partial (v := v) hv n).2.1 h0 hn
      rw [KTime.divUnsigned, if_neg hne] at this
      rw [this, Int.tdiv_eq_ediv_of_nonneg h0]
    · have em : v % 2 ^ 64 = v + 2 ^ 64 := by omega
      rw [em]
      have ht : v.tdiv n ≤ 0 := by
        have := Int.tdiv_nonneg (a := -v) (b := (n : Int)) (by omega) (by omega)
        rw [Int.neg_tdiv] at this
        omega
      rcases Nat.lt_or_ge 1 n with h1 | h1
      · by_cases h2 : v + 2 ^ 64 < n
        · refine ⟨fun _ => .inr (.inr h2), fun _ => ?_⟩
          have e1 : (v + 2 ^ 64) / (n : Int) = 0 := Int.ediv_eq_zero_of_lt (by omega) h2
          have e2 : v.tdiv n = 0 := by
            have := Int.tdiv_eq_zero_of_lt (a := -v) (b := (n : Int)) (by omega) (by omega)
            rw [Int.neg_tdiv] at this
            omega
          rw [e1, e2]
          rfl
        · refine ⟨fun h => ?_, fun h => by omega⟩
          exfalso
          have h' := Except.ok.inj h
          have c1 : 1 ≤ (v + 2 ^ 64) / (n : Int) := by
            rw [Int.le_ediv_iff_mul_le (by omega)]; omega
          have c2 : (v + 2 ^ 64) / (n : Int) < 2 ^ 63 := by
            rw [Int.ediv_lt_iff_lt_mul (by omega)]; omega
          unfold KTime.signed at h'
          split at h' <;> omega
      · have hn1 : n = 1 := by omega
        subst hn1
        refine ⟨fun _ => .inr (.inl rfl), fun _ => ?_⟩
        simp only [Nat.cast_one, Int.ediv_one, Int.tdiv_one]
        unfold KTime.signed
        congr 1
        split <;> omega

example : KTime.divUnsigned (-10) 2 = .ok 9223372036854775803 ∧ KTime.divUnsigned (-10) 1 = .ok (-10) ∧ KTime.divUnsigned (-10) (2 ^ 64 - 1) = .ok 0 := by decide +kernel

end times

section lines
open LineBuf
open Ring (Rep)
variable {n : Nat} {l : LineBuf} {q : List Byte}

theorem LineBuf.whileLine_stuck {D : List Byte} : ∀ {q ls tail}, Lines.Split D q ls tail → ∀ {l : LineBuf} (fuel : Nat) (dst : List Byte), Rep n l.ring q → l.delims = D →
    (∃ line ∈ ls, dst.length ≤ line.length) → l.whileLine dst fuel = .error .fuel := by
  intro q ls tail hs
  induction hs with
  | done hno =>
    rintro l fuel dst h hD ⟨line, hm, -⟩
    cases hm
  | @line q line rest lines tail hf hs ih =>
    intro l fuel dst h hD hex
    subst hD
    by_cases hfit : line.length < dst.length
    · cases fuel with
      | zero => rfl
      | succ fuel =>
        obtain ⟨l₁, e₁, h₁, d₁⟩ := getNextLine_first h hf (.inl rfl) dst dst.length (by omega) (by omega)
        have hl : (line ++ [0] ++ dst.drop (line.length + 1)).length = dst.length := by simp; omega
        have hex' : ∃ x ∈ lines, (line ++ [0] ++ dst.drop (line.length + 1)).length ≤ x.length := by
          obtain ⟨x, hx, hxl⟩ := hex
          rcases List.mem_cons.mp hx with rfl | hx
          · omega
          · exact ⟨x, hx, by omega⟩
        have := ih fuel (line ++ [0] ++ dst.drop (line.length + 1)) h₁ d₁ hex'
        rw [whileLine]
        simp only [hasLine_first h hf, e₁, res_bind_ok, if_true, this, res_bind_error]
    · induction fuel with
      | zero => rfl
      | succ fuel ih' =>
        rw [whileLine]
        simp [hasLine_first h hf, getNextLine_long h hf (.inl rfl) dst dst.length (by omega), ih']

/-- **C137, exactly.** The loop that ends when `get_next_line` returns 0 processes all lines iff none of them is empty or too long for the array; the loop that asks `has_line` first
ends iff none of them is too long. -/
theorem C137_exact (hn : 0 < n) (h : LineBuf.Reachable n l) (hq : l.Holds q) {ls : List (List Byte)} {tail : List Byte} (hs : Lines.Split l.delims q ls tail) (dst : List Byte) :
    ((∃ l', l.whileRead dst (n + 1) = .ok (ls, l')) ↔ ∀ line ∈ ls, line.length ≠ 0 ∧ line.length < dst.length) ∧
      ((∃ fuel r, l.whileLine dst fuel = .ok r) ↔ ∀ line ∈ ls, line.length < dst.length) := by
  constructor
  · obtain ⟨l₁, e, hall⟩ := C137_read_partial hn h hq hs dst
    constructor
    · rintro ⟨l', e'⟩
      rw [e] at e'
      have := congrArg Prod.fst (Except.ok.inj e')
      simp only at this
      intro line hm
      rw [← this] at hm
      have hp := List.mem_takeWhile_imp hm
      exact of_decide_eq_true hp
    · intro hl
      exact ⟨l₁, (hall hl).2⟩
  · constructor
    · rintro ⟨fuel, r, e⟩ line hm
      by_contra hc
      obtain ⟨q', hq'⟩ := LineBuf.Reachable.rep hn h
      obtain rfl := hq'.holds.unique hq
      rw [LineBuf.whileLine_stuck hs fuel dst hq' rfl ⟨line, hm, by omega⟩] at e
      cases e
    · intro hl
      obtain ⟨l', e, -⟩ := C137_guarded_partial hn h hq hs dst hl
      exact ⟨_, _, e⟩

end lines

end Spine
