import Verif.Core.Float32
/-!
# Floating point arithmetic

`Arith F` names the operations the code uses on `float`.  Code that only compares is modelled over any `F`; the two instances are
`Fl`, IEEE-754 binary32 with infinities, signed zeros and NaN (round to nearest, ties to even), and `Rat`, exact arithmetic.
Assumed of the compiler for `Fl`: `FLT_EVAL_METHOD` is 0, no fused operations, no fast-math.
-/

namespace Spine

/-- The operations of a floating point type. -/
class Arith (F : Type) where
  /-- a literal, or the conversion of an integer -/
  ofRat : Rat → F
  add : F → F → F
  sub : F → F → F
  mul : F → F → F
  div : F → F → F
  /-- `a < b` -/
  lt : F → F → Bool
  /-- `a <= b` -/
  le : F → F → Bool

/-- What comparisons of floating point numbers satisfy, also with NaN. -/
class LawfulArith (F : Type) [Arith F] : Prop where
  irrefl : ∀ a : F, Arith.lt a a = false
  asymm : ∀ a b : F, Arith.lt a b = true → Arith.lt b a = false
  lt_le : ∀ a b : F, Arith.lt a b = true → Arith.le a b = true
  not_lt : ∀ a b : F, Arith.le a b = true → Arith.lt b a = false

/-- Exact arithmetic; division by zero must be excluded by the user. -/
instance : Arith Rat where
  ofRat q := q
  add := (· + ·)
  sub := (· - ·)
  mul := (· * ·)
  div := (· / ·)
  lt a b := decide (a < b)
  le a b := decide (a ≤ b)

instance : LawfulArith Rat where
  irrefl a := by simp [Arith.lt]
  asymm a b h := by simp only [Arith.lt, decide_eq_true_eq, decide_eq_false_iff_not, not_lt] at h ⊢; exact h.le
  lt_le a b h := by simp only [Arith.lt, Arith.le, decide_eq_true_eq] at h ⊢; exact h.le
  not_lt a b h := by simp only [Arith.lt, Arith.le, decide_eq_true_eq, decide_eq_false_iff_not, not_lt] at h ⊢; exact h

/-- IEEE-754 binary32: sign and magnitude. -/
inductive Fl
  | nan
  | inf (neg : Bool)
  | num (neg : Bool) (mag : Rat)
  deriving DecidableEq, Repr

namespace Fl
open F32

/-- Neither infinite nor NaN. -/
def fin : Fl → Bool
  | .num _ _ => true
  | _ => false

/-- The number meant; 0 if there is none. -/
def val : Fl → Rat
  | .num s m => if s then -m else m
  | _ => 0

/-- Round a magnitude. -/
def round (neg : Bool) (q : Rat) : Fl := if rnd q < pow2 128 then .num neg (rnd q) else .inf neg

/-- Round a number. -/
def ofRat (q : Rat) : Fl := round (decide (q < 0)) |q|

/-- Change of sign. -/
def neg : Fl → Fl
  | .nan => .nan
  | .inf s => .inf !s
  | .num s m => .num (!s) m

/-- Addition. A sum of zero is `+0` unless both operands are `-0`. -/
def add : Fl → Fl → Fl
  | .nan, _ => .nan
  | _, .nan => .nan
  | .inf s, .inf t => if s = t then .inf s else .nan
  | .inf s, .num _ _ => .inf s
  | .num _ _, .inf t => .inf t
  | .num s m, .num t n =>
    let q := val (.num s m) + val (.num t n)
    if q = 0 then .num (s && t) 0 else ofRat q

/-- Subtraction. -/
def sub (x y : Fl) : Fl := add x (neg y)

/-- Multiplication. -/
def mul : Fl → Fl → Fl
  | .nan, _ => .nan
  | _, .nan => .nan
  | .inf s, .inf t => .inf (s != t)
  | .inf s, .num t n => if n = 0 then .nan else .inf (s != t)
  | .num s m, .inf t => if m = 0 then .nan else .inf (s != t)
  | .num s m, .num t n => round (s != t) (m * n)

/-- Division. -/
def div : Fl → Fl → Fl
  | .nan, _ => .nan
  | _, .nan => .nan
  | .inf _, .inf _ => .nan
  | .inf s, .num t _ => .inf (s != t)
  | .num s _, .inf t => .num (s != t) 0
  | .num s m, .num t n => if n = 0 then if m = 0 then .nan else .inf (s != t) else round (s != t) (m / n)

/-- `<`, false if an operand is NaN. -/
def lt : Fl → Fl → Bool
  | .nan, _ => false
  | _, .nan => false
  | .inf s, .inf t => s && !t
  | .inf s, .num _ _ => s
  | .num _ _, .inf t => !t
  | .num s m, .num t n => decide (val (.num s m) < val (.num t n))

/-- `<=`, false if an operand is NaN. -/
def le : Fl → Fl → Bool
  | .nan, _ => false
  | _, .nan => false
  | .inf s, .inf t => s || !t
  | .inf s, .num _ _ => s
  | .num _ _, .inf t => !t
  | .num s m, .num t n => decide (val (.num s m) ≤ val (.num t n))

/-- `std::fabs`. -/
def fabs : Fl → Fl
  | .nan => .nan
  | .inf _ => .inf false
  | .num _ m => .num false m

instance : Arith Fl := ⟨ofRat, add, sub, mul, div, lt, le⟩

instance : LawfulArith Fl where
  irrefl a := by cases a <;> simp [Arith.lt, lt]
  asymm a b h := by
    cases a <;> cases b <;> simp_all [Arith.lt, lt]
    exact h.le
  lt_le a b h := by
    cases a <;> cases b <;> simp_all [Arith.lt, lt, Arith.le, le]
    exact h.le
  not_lt a b h := by
    cases a <;> cases b <;> simp_all [Arith.lt, lt, Arith.le, le]
    next s t => cases s <;> cases t <;> simp_all

/-- What a `float` variable can hold. -/
def Ok : Fl → Prop
  | .num _ m => 0 ≤ m ∧ rnd m = m ∧ m < pow2 128
  | _ => True

/-! ## Lemmas -/

theorem rnd_zero : rnd 0 = 0 := by simp [rnd]

theorem round_ok (s : Bool) {q : Rat} (h : 0 ≤ q) : (round s q).Ok := by
  unfold round
  split
  · next h1 => exact ⟨rnd_nonneg h, rnd_rnd q, h1⟩
  · trivial

theorem ofRat_ok (q : Rat) : (ofRat q).Ok := round_ok _ (abs_nonneg q)

theorem neg_ok {x : Fl} (h : x.Ok) : x.neg.Ok := by cases x <;> exact h

theorem add_ok (x y : Fl) : (add x y).Ok := by
  cases x <;> cases y <;> simp only [add] <;> try trivial
  · split <;> trivial
  · split
    · exact ⟨le_refl _, rnd_zero, pow2_pos _⟩
    · exact ofRat_ok _

theorem sub_ok (x y : Fl) : (sub x y).Ok := add_ok _ _

theorem mul_ok {x y : Fl} (hx : x.Ok) (hy : y.Ok) : (mul x y).Ok := by
  cases x <;> cases y <;> simp only [mul] <;> try trivial
  · split <;> trivial
  · split <;> trivial
  · exact round_ok _ (mul_nonneg hx.1 hy.1)

theorem div_ok {x y : Fl} (hx : x.Ok) (hy : y.Ok) : (div x y).Ok := by
  have h0 : ∀ s, (Fl.num s 0).Ok := fun s => ⟨le_refl _, rnd_zero, pow2_pos _⟩
  cases x <;> cases y <;> simp only [div] <;> first | trivial | exact h0 _ | skip
  split
  · split <;> trivial
  · exact round_ok _ (div_nonneg hx.1 hy.1)

theorem rnd_abs (q : Rat) : rnd |q| = |rnd q| := by
  rcases le_or_gt 0 q with h | h
  · rw [abs_of_nonneg h, abs_of_nonneg (rnd_nonneg h)]
  · have h1 : 0 ≤ rnd (-q) := rnd_nonneg (by linarith)
    rw [abs_of_neg h, rnd_neg, abs_of_nonpos (by rw [rnd_neg] at h1; linarith)]

/-- Rounding a number that does not overflow. -/
theorem ofRat_val {q : Rat} (h : |rnd q| < pow2 128) : (ofRat q).fin = true ∧ (ofRat q).val = rnd q := by
  unfold ofRat round
  rw [rnd_abs, if_pos h]
  refine ⟨rfl, ?_⟩
  simp only [val, decide_eq_true_eq]
  split
  · next hq =>
    have h1 : 0 ≤ rnd (-q) := rnd_nonneg (by linarith)
    rw [rnd_neg] at h1
    rw [abs_of_nonpos (by linarith), neg_neg]
  · next hq => rw [abs_of_nonneg (rnd_nonneg (not_lt.mp hq))]

theorem neg_val (x : Fl) : x.neg.val = -x.val ∧ x.neg.fin = x.fin := by
  cases x with
  | nan => simp [neg, val, fin]
  | inf s => simp [neg, val, fin]
  | num s m => cases s <;> simp [neg, val, fin]

theorem add_val {x y : Fl} (hx : x.fin = true) (hy : y.fin = true) (h : |rnd (x.val + y.val)| < pow2 128) :
    (add x y).fin = true ∧ (add x y).val = rnd (x.val + y.val) := by
  cases x <;> cases y <;> simp_all only [fin, Bool.false_eq_true]
  next s m t n =>
  have e : add (num s m) (num t n) = if val (num s m) + val (num t n) = 0 then num (s && t) 0 else ofRat (val (num s m) + val (num t n)) := rfl
  by_cases h0 : val (num s m) + val (num t n) = 0
  · rw [if_pos h0] at e
    rw [e, h0, rnd_zero]
    exact ⟨rfl, by simp [val]⟩
  · rw [if_neg h0] at e
    rw [e]
    exact ofRat_val h

theorem sub_val {x y : Fl} (hx : x.fin = true) (hy : y.fin = true) (h : |rnd (x.val - y.val)| < pow2 128) :
    (sub x y).fin = true ∧ (sub x y).val = rnd (x.val - y.val) := by
  have h1 := neg_val y
  have := add_val hx (h1.2.trans hy) (by rw [h1.1, ← sub_eq_add_neg]; exact h)
  rwa [h1.1, ← sub_eq_add_neg] at this

theorem round_val {s : Bool} {q : Rat} (h : rnd q < pow2 128) : (round s q).fin = true ∧ (round s q).val = if s then - rnd q else rnd q := by
  unfold round
  rw [if_pos h]
  exact ⟨rfl, rfl⟩

theorem mul_val {x y : Fl} (hx : x.fin = true) (hy : y.fin = true) (hxo : x.Ok) (hyo : y.Ok) (h : |rnd (x.val * y.val)| < pow2 128) :
    (mul x y).fin = true ∧ (mul x y).val = rnd (x.val * y.val) := by
  cases x <;> cases y <;> simp_all only [fin, Bool.false_eq_true]
  next s m t n =>
  have hnn : 0 ≤ rnd (m * n) := rnd_nonneg (mul_nonneg hxo.1 hyo.1)
  have habs : |rnd (val (num s m) * val (num t n))| = rnd (m * n) := by
    rw [← rnd_abs, abs_mul]
    have e1 : |val (num s m)| = m := by cases s <;> simp [val, abs_of_nonneg hxo.1]
    have e2 : |val (num t n)| = n := by cases t <;> simp [val, abs_of_nonneg hyo.1]
    rw [e1, e2]
  rw [habs] at h
  simp only [mul]
  refine ⟨(round_val h).1, ?_⟩
  rw [(round_val h).2]
  cases s <;> cases t <;> simp [val, ← rnd_neg]

theorem div_val {x y : Fl} (hx : x.fin = true) (hy : y.fin = true) (hxo : x.Ok) (hyo : y.Ok) (hy0 : y.val ≠ 0)
    (h : |rnd (x.val / y.val)| < pow2 128) : (div x y).fin = true ∧ (div x y).val = rnd (x.val / y.val) := by
  cases x <;> cases y <;> simp_all only [fin, Bool.false_eq_true]
  next s m t n =>
  have hn0 : n ≠ 0 := by rintro rfl; apply hy0; simp [val]
  have habs : |rnd (val (num s m) / val (num t n))| = rnd (m / n) := by
    rw [← rnd_abs, abs_div]
    have e1 : |val (num s m)| = m := by cases s <;> simp [val, abs_of_nonneg hxo.1]
    have e2 : |val (num t n)| = n := by cases t <;> simp [val, abs_of_nonneg hyo.1]
    rw [e1, e2]
  rw [habs] at h
  simp only [div, if_neg hn0]
  refine ⟨(round_val h).1, ?_⟩
  rw [(round_val h).2]
  cases s <;> cases t <;> simp [val, ← rnd_neg, neg_div, div_neg]

theorem Ok.rnd_val {x : Fl} (h : x.Ok) : rnd x.val = x.val := by
  cases x with
  | nan => exact rnd_zero
  | inf s => exact rnd_zero
  | num s m => cases s <;> simp [val, h.2.1, rnd_neg]

theorem Ok.val_lt {x : Fl} (h : x.Ok) : |x.val| < pow2 128 := by
  cases x with
  | nan => simp [val, pow2_pos]
  | inf s => simp [val, pow2_pos]
  | num s m => cases s <;> simp [val, abs_of_nonneg h.1, h.2.2]

theorem le_iff {x y : Fl} (hx : x.fin = true) (hy : y.fin = true) : le x y = true ↔ x.val ≤ y.val := by
  cases x <;> cases y <;> simp_all [fin, le]

theorem lt_iff {x y : Fl} (hx : x.fin = true) (hy : y.fin = true) : lt x y = true ↔ x.val < y.val := by
  cases x <;> cases y <;> simp_all [fin, lt]

theorem lt_trans {x y z : Fl} (h1 : lt x y = true) (h2 : lt y z = true) : lt x z = true := by
  cases x <;> cases y <;> cases z <;> simp_all [lt]
  exact _root_.lt_trans h1 h2

/-- Rounding is monotone, also where it overflows. -/
theorem ofRat_mono {p q : Rat} (h : p ≤ q) : lt (ofRat q) (ofRat p) = false := by
  by_cases hq : |rnd q| < pow2 128
  · by_cases hp : |rnd p| < pow2 128
    · have h1 := ofRat_val hq
      have h2 := ofRat_val hp
      rw [Bool.eq_false_iff, ne_eq, lt_iff h1.1 h2.1, h1.2, h2.2]
      exact not_lt.mpr (rnd_mono h)
    · have hp0 : p < 0 := by
        by_contra hc
        rw [not_lt] at hc
        apply hp
        rw [abs_of_nonneg (rnd_nonneg hc)]
        rw [abs_of_nonneg (rnd_nonneg (hc.trans h))] at hq
        exact (rnd_mono h).trans_lt hq
      have e : ofRat p = .inf true := by
        unfold ofRat round
        rw [rnd_abs, if_neg hp]
        simp [hp0]
      rw [e]
      cases ofRat q <;> simp [lt]
  · rcases le_or_gt 0 q with h0 | h0
    · have e : ofRat q = .inf false := by
        unfold ofRat round
        rw [rnd_abs, if_neg hq]
        simp [h0]
      rw [e]
      cases ofRat p <;> simp [lt]
    · have hp0 : p < 0 := h.trans_lt h0
      have e : ofRat p = .inf true := by
        unfold ofRat round
        have : ¬ |rnd p| < pow2 128 := by
          intro hc
          apply hq
          have h1 : rnd q ≤ 0 := by have := rnd_mono h0.le; rwa [rnd_zero] at this
          have h2 : rnd p ≤ 0 := by have := rnd_mono hp0.le; rwa [rnd_zero] at this
          rw [abs_of_nonpos h2] at hc
          rw [abs_of_nonpos h1]
          have := rnd_mono h
          linarith
        rw [rnd_abs, if_neg this]
        simp [hp0]
      rw [e]
      cases ofRat q <;> simp [lt]

theorem ofRat_zero : ofRat 0 = .num false 0 := by decide +kernel

/-- For comparisons the sign of zero does not matter. -/
theorem lt_zero_left (z : Bool) (q : Rat) (y : Fl) : lt (if q = 0 then .num z 0 else ofRat q) y = lt (ofRat q) y := by
  split
  · next h => subst h; rw [ofRat_zero]; cases y <;> cases z <;> simp [lt, val]
  · rfl

theorem lt_zero_right (z : Bool) (q : Rat) (y : Fl) : lt y (if q = 0 then .num z 0 else ofRat q) = lt y (ofRat q) := by
  split
  · next h => subst h; rw [ofRat_zero]; cases y <;> cases z <;> simp [lt, val]
  · rfl

end Fl
end Spine
