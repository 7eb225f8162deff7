import Verif.Props.FilterOrder
import Verif.Model.Pid
/-!
# C188: a controller pushes against the error
-/

namespace Spine

open F32 Fl FilterOrder

namespace Fl

/-- Not above, unless one of them is not a number. -/
def Below (x y : Fl) : Prop := x ≠ .nan → y ≠ .nan → Fl.le x y = true

theorem Below.of_le {x y : Fl} (h : Fl.le x y = true) : Below x y := fun _ _ => h

theorem below_refl (x : Fl) : Below x x := by
  intro h _
  cases x with
  | nan => exact absurd rfl h
  | inf s => cases s <;> rfl
  | num s m => simp [Fl.le]

theorem add_nan_left {x y : Fl} (h : Fl.add x y ≠ .nan) : x ≠ .nan := by rintro rfl; exact h rfl

theorem add_nan_right {x y : Fl} (h : Fl.add x y ≠ .nan) : y ≠ .nan := by
  rintro rfl
  apply h
  cases x <;> rfl

theorem le_inf {z : Fl} (h : z ≠ .nan) : Fl.le z (.inf false) = true ∧ Fl.le (.inf true) z = true := by
  cases z with
  | nan => exact absurd rfl h
  | inf s => cases s <;> exact ⟨rfl, rfl⟩
  | num s m => exact ⟨rfl, rfl⟩

theorem fl_le_trans {x y z : Fl} (h1 : Fl.le x y = true) (h2 : Fl.le y z = true) : Fl.le x z = true := by
  cases x <;> cases y <;> cases z <;> simp_all [Fl.le]
  · next s t u => cases s <;> cases t <;> simp_all
  · exact _root_.le_trans h1 h2

/-- Addition does not reverse an order, also where it overflows. -/
theorem Below.add {x y a c : Fl} (h1 : Below x y) (h2 : Below a c) : Below (Fl.add x a) (Fl.add y c) := by
  intro n1 n2
  have h1 := h1 (add_nan_left n1) (add_nan_left n2)
  have h2 := h2 (add_nan_right n1) (add_nan_right n2)
  by_cases fa : a.fin = true
  · by_cases fy : y.fin = true
    · refine fl_le_trans (add_mono fa h1) ?_
      rw [add_comm_fl y a, add_comm_fl y c]
      exact add_mono fy h2
    · cases y with
      | nan => exact absurd rfl (add_nan_left n2)
      | num => exact absurd rfl fy
      | inf s =>
        cases s with
        | false =>
          have e : Fl.add (.inf false) c = .inf false := by
            cases c with
            | nan => exact absurd rfl (add_nan_right n2)
            | num => rfl
            | inf t => cases t with
              | false => rfl
              | true => exact absurd rfl n2
          rw [e]; exact (le_inf n1).1
        | true =>
          cases x with
          | nan => exact absurd rfl (add_nan_left n1)
          | num => simp [Fl.le] at h1
          | inf t =>
            cases t with
            | false => simp [Fl.le] at h1
            | true =>
              have e : Fl.add (.inf true) a = .inf true := by
                cases a with
                | num => rfl
                | nan => simp [Fl.fin] at fa
                | inf => simp [Fl.fin] at fa
              rw [e]; exact (le_inf n2).2
  · cases a with
    | nan => exact absurd rfl (add_nan_right n1)
    | num => exact absurd rfl fa
    | inf s =>
      cases s with
      | true =>
        have e : Fl.add x (.inf true) = .inf true := by
          cases x with
          | nan => exact absurd rfl (add_nan_left n1)
          | num => rfl
          | inf t => cases t with
            | true => rfl
            | false => exact absurd rfl n1
        rw [e]; exact (le_inf n2).2
      | false =>
        cases c with
        | nan => exact absurd rfl (add_nan_right n2)
        | num => simp [Fl.le] at h2
        | inf t =>
          cases t with
          | true => simp [Fl.le] at h2
          | false =>
            have e : Fl.add y (.inf false) = .inf false := by
              cases y with
              | nan => exact absurd rfl (add_nan_left n2)
              | num => rfl
              | inf t => cases t with
                | false => rfl
                | true => exact absurd rfl n2
            rw [e]; exact (le_inf n1).1

theorem Below.neg {x y : Fl} (h : Below x y) : Below y.neg x.neg := by
  intro n1 n2
  refine neg_le (h ?_ ?_)
  · rintro rfl; exact n2 rfl
  · rintro rfl; exact n1 rfl

theorem Below.sub {x y a c : Fl} (h1 : Below x y) (h2 : Below c a) : Below (Fl.sub x a) (Fl.sub y c) := h1.add h2.neg

/-- Rounding does not reverse the order of signed magnitudes. -/
theorem round_le {s t : Bool} {m n : Rat} (hm : 0 ≤ m) (hn : 0 ≤ n) (h : (if s then -m else m) ≤ (if t then -n else n)) : Fl.le (Fl.round s m) (Fl.round t n) = true := by
  have r0 : ∀ {q : Rat}, 0 ≤ q → 0 ≤ rnd q := fun hq => by have := rnd_mono hq; rwa [rnd_zero] at this
  unfold Fl.round
  cases s <;> cases t <;> simp only [if_true, Bool.false_eq_true, if_false] at h
  · have := rnd_mono h
    split_ifs
    · simpa [Fl.le, Fl.val] using this
    · rfl
    · exfalso; linarith
    · rfl
  · obtain rfl : m = 0 := by linarith
    obtain rfl : n = 0 := by linarith
    rw [rnd_zero, if_pos (pow2_pos _), if_pos (pow2_pos _)]
    decide
  · split_ifs
    · simp only [Fl.le, Fl.val, if_true, Bool.false_eq_true, if_false, decide_eq_true_eq]
      have := r0 hm; have := r0 hn; linarith
    · rfl
    · rfl
    · rfl
  · have := rnd_mono (neg_le_neg_iff.mp h)
    split_ifs
    · simpa [Fl.le, Fl.val] using this
    · exfalso; linarith
    · rfl
    · rfl

/-- Multiplication by a number that is not negative does not reverse an order. -/
theorem Below.mul {k x y : Fl} (hk : Fl.le (.num false 0) k = true) (ok : k.Ok) (ox : x.Ok) (oy : y.Ok) (h : Below x y) : Below (Fl.mul k x) (Fl.mul k y) := by
  intro n1 n2
  have nx : x ≠ .nan := by rintro rfl; apply n1; cases k <;> rfl
  have ny : y ≠ .nan := by rintro rfl; apply n2; cases k <;> rfl
  have h := h nx ny
  cases k with
  | nan => simp [Fl.le] at hk
  | inf s =>
    have hs : s = false := by simpa [Fl.le] using hk
    subst hs
    cases x with
    | nan => exact absurd rfl nx
    | inf t =>
      cases t with
      | true => exact (le_inf n2).2
      | false =>
        cases y with
        | nan => exact absurd rfl ny
        | inf u => cases u with
          | true => simp [Fl.le] at h
          | false => rfl
        | num u n => simp [Fl.le] at h
    | num t m =>
      have hm : m ≠ 0 := by rintro rfl; exact n1 (by simp [Fl.mul])
      have e1 : Fl.mul (.inf false) (.num t m) = .inf t := by simp [Fl.mul, hm]
      cases y with
      | nan => exact absurd rfl ny
      | inf u => cases u with
        | true => simp [Fl.le] at h
        | false => exact (le_inf n1).1
      | num u n =>
        have hn : n ≠ 0 := by rintro rfl; exact n2 (by simp [Fl.mul])
        have e2 : Fl.mul (.inf false) (.num u n) = .inf u := by simp [Fl.mul, hn]
        rw [e1, e2]
        have hv : Fl.val (.num t m) ≤ Fl.val (.num u n) := by simpa [Fl.le] using h
        have m0 := ox.1
        have p0 := oy.1
        cases t <;> cases u <;> simp only [Fl.val, if_true, Bool.false_eq_true, if_false] at hv <;> first | rfl | skip
        exact absurd (le_antisymm (by linarith) m0) hm
  | num s q =>
    have q0 := ok.1
    have hq : s = true → q = 0 := by
      rintro rfl
      have : (0 : Rat) ≤ -q := by simpa [Fl.le, Fl.val] using hk
      linarith
    cases x with
    | nan => exact absurd rfl nx
    | inf t =>
      have hq0 : q ≠ 0 := by rintro rfl; exact n1 (by simp [Fl.mul])
      have hs : s = false := by cases s with
        | false => rfl
        | true => exact absurd (hq rfl) hq0
      subst hs
      cases t with
      | true =>
        have e : Fl.mul (.num false q) (.inf true) = .inf true := by simp [Fl.mul, hq0]
        rw [e]; exact (le_inf n2).2
      | false =>
        cases y with
        | nan => exact absurd rfl ny
        | inf u => cases u with
          | true => simp [Fl.le] at h
          | false => exact (below_refl _) n1 n2
        | num u n => simp [Fl.le] at h
    | num t m =>
      cases y with
      | nan => exact absurd rfl ny
      | inf u =>
        have hq0 : q ≠ 0 := by rintro rfl; exact n2 (by simp [Fl.mul])
        have hs : s = false := by cases s with
          | false => rfl
          | true => exact absurd (hq rfl) hq0
        subst hs
        cases u with
        | true => simp [Fl.le] at h
        | false =>
          have e : Fl.mul (.num false q) (.inf false) = .inf false := by simp [Fl.mul, hq0]
          rw [e]; exact (le_inf n1).1
      | num u n =>
        have hv : Fl.val (.num t m) ≤ Fl.val (.num u n) := by simpa [Fl.le] using h
        have m0 := ox.1
        have p0 := oy.1
        change Fl.le (Fl.round (s != t) (q * m)) (Fl.round (s != u) (q * n)) = true
        refine round_le (by positivity) (by positivity) ?_
        cases s with
        | true =>
          rw [hq rfl]; simp
        | false =>
          have := mul_le_mul_of_nonneg_left hv q0
          cases t <;> cases u <;> simpa [Fl.val] using this

/-- A clamp does not reverse an order. -/
theorem Below.clamp {lo hi x y : Fl} (hl : Fl.le lo hi = true) (h : Below x y) : Below (Pid.clamp lo hi x) (Pid.clamp lo hi y) := by
  intro n1 n2
  have nlo : lo ≠ .nan := by rintro rfl; simp [Fl.le] at hl
  have nhi : hi ≠ .nan := by rintro rfl; cases lo <;> simp [Fl.le] at hl
  have keep : ∀ z : Fl, Pid.clamp lo hi z ≠ .nan → z ≠ .nan := by
    rintro z hz rfl
    apply hz
    have e1 : Arith.lt hi Fl.nan = false := by change Fl.lt hi .nan = false; cases hi <;> rfl
    have e2 : Arith.lt Fl.nan lo = false := rfl
    simp only [Pid.clamp, e1, e2]; rfl
  have nx := keep x n1
  have ny := keep y n2
  have h := h nx ny
  have lt_le : ∀ {a c : Fl}, Arith.lt a c = true → Fl.le a c = true := fun h => LawfulArith.lt_le _ _ h
  unfold Pid.clamp
  have not_lt : ∀ {a c : Fl}, a ≠ .nan → c ≠ .nan → ¬ Arith.lt c a = true → Fl.le a c = true := fun ha hc h => le_of_not_lt ha hc (Bool.eq_false_iff.mpr h)
  by_cases h1 : Arith.lt hi x = true
  · have hy := fl_le_trans (lt_le h1) h
    rw [if_pos h1]
    split
    · exact below_refl _ nhi nhi
    · split
      · next h3 => exact fl_le_trans hy (lt_le h3)
      · exact hy
  · rw [if_neg h1]
    by_cases h2 : Arith.lt x lo = true
    · rw [if_pos h2]
      split
      · exact hl
      · split
        · exact below_refl _ nlo nlo
        · next h4 => exact not_lt nlo ny h4
    · rw [if_neg h2]
      split
      · exact not_lt nx nhi h1
      · split
        · next h4 => exact fl_le_trans h (lt_le h4)
        · exact h

theorem mul_nan {k x : Fl} (h : Fl.mul k x ≠ .nan) : x ≠ .nan := by rintro rfl; apply h; cases k <;> rfl

/-- Multiplication by a number that is not positive reverses an order. -/
theorem Below.mul_neg {k x y : Fl} (hk : Fl.le k (.num false 0) = true) (ok : k.Ok) (ox : x.Ok) (oy : y.Ok) (h : Below x y) : Below (Fl.mul k y) (Fl.mul k x) := by
  have e : ∀ z : Fl, Fl.mul k z = (Fl.mul k.neg z).neg := by
    intro z
    cases k <;> cases z <;> simp only [Fl.mul, Fl.neg]
    · next s t => cases s <;> cases t <;> rfl
    · next s t n => split
                    · rfl
                    · cases s <;> cases t <;> rfl
    · next s m t => split
                    · rfl
                    · cases s <;> cases t <;> rfl
    · next s m t n =>
      unfold Fl.round
      split
      · cases s <;> cases t <;> rfl
      · cases s <;> cases t <;> rfl
  rw [e x, e y]
  refine Below.neg (Below.mul ?_ (neg_ok ok) ox oy h)
  have := neg_le hk
  rw [show Fl.neg (.num false 0) = .num true 0 from rfl, le_zero_left] at this
  exact this

/-- A product with zero is zero or not a number. -/
theorem below_zero {k x y : Fl} (hk : k.fin = true) (h0 : k.val = 0) (ok : k.Ok) : Below (Fl.mul k x) (Fl.mul k y) := by
  have key : ∀ z : Fl, Fl.mul k z ≠ .nan → ∃ s, Fl.mul k z = .num s 0 := by
    intro z hz
    cases k with
    | nan => simp [Fl.fin] at hk
    | inf => simp [Fl.fin] at hk
    | num s m =>
      have hm : m = 0 := by cases s <;> simpa [Fl.val] using h0
      subst hm
      cases z with
      | nan => exact absurd rfl hz
      | inf t => exact absurd (by simp [Fl.mul]) hz
      | num t n => exact ⟨s != t, by simp [Fl.mul, Fl.round, rnd_zero, pow2_pos]⟩
  intro n1 n2
  obtain ⟨s, e1⟩ := key x n1
  obtain ⟨t, e2⟩ := key y n2
  rw [e1, e2, le_zero_left, le_zero_right]
  decide

end Fl

namespace Pid

/-- Two controllers compute; how the parts of the law compare. `lower` is the one whose response is not above the other's. -/
theorem compute_below {s t : Pid Fl} {now : Int} (hl : Fl.le s.lo s.hi = true) (e1 : t.lo = s.lo) (e2 : t.hi = s.hi) (e3 : t.onMeasurement = s.onMeasurement)
    (hc : Below t.cumulative s.cumulative)
    (hi : Below (Fl.mul t.ki (Fl.sub t.setpoint t.input)) (Fl.mul s.ki (Fl.sub s.setpoint s.input)))
    (hp : s.onMeasurement = false → Below (Fl.mul t.kp (Fl.sub t.setpoint t.input)) (Fl.mul s.kp (Fl.sub s.setpoint s.input)))
    (hm : s.onMeasurement = true → Below (Fl.mul s.kp (Fl.sub s.input s.lastReading)) (Fl.mul t.kp (Fl.sub t.input t.lastReading)))
    (hd : Below (Fl.mul s.kd (Fl.sub s.input s.lastReading)) (Fl.mul t.kd (Fl.sub t.input t.lastReading))) :
    Below (t.compute now).cumulative (s.compute now).cumulative ∧ Below (t.compute now).output (s.compute now).output := by
  have c : Below (t.compute now).cumulative (s.compute now).cumulative := by
    simp only [compute, e1, e2, e3]
    refine Below.clamp hl ?_
    cases h : s.onMeasurement with
    | true => exact (hc.add hi).sub (hm h)
    | false => exact hc.add hi
  refine ⟨c, ?_⟩
  have o : ∀ u : Pid Fl, (u.compute now).output = clamp u.lo u.hi (Fl.add (if u.onMeasurement then fzero else Fl.mul u.kp (Fl.sub u.setpoint u.input)) (Fl.sub (u.compute now).cumulative (Fl.mul u.kd (Fl.sub u.input u.lastReading)))) :=
    fun u => rfl
  rw [o, o, e1, e2, e3]
  refine Below.clamp hl (Below.add ?_ (c.sub hd))
  cases h : s.onMeasurement with
  | true => exact below_refl _
  | false => exact hp h

/-- Gains that are not negative (`up`), or not positive, as in a controller of reverse direction; limits in order. -/
structure Acts (up : Bool) (s : Pid Fl) : Prop where
  gains : ∀ k ∈ [s.kp, s.ki, s.kd], k.Ok ∧ if up then Fl.le fzero k = true else Fl.le k fzero = true
  limits : Fl.le s.lo s.hi = true

theorem Acts.mul {up : Bool} {s : Pid Fl} (h : s.Acts up) {k : Fl} (hk : k ∈ [s.kp, s.ki, s.kd]) {x y : Fl} (ox : x.Ok) (oy : y.Ok) (hxy : Below x y) :
    if up then Below (Fl.mul k x) (Fl.mul k y) else Below (Fl.mul k y) (Fl.mul k x) := by
  obtain ⟨h1, h2⟩ := h.gains k hk
  have e : (fzero : Fl) = .num false 0 := Fl.ofRat_zero
  rw [e] at h2
  cases up with
  | true => exact hxy.mul h2 h1 ox oy
  | false => exact hxy.mul_neg h2 h1 ox oy

end Pid

/-- What `new_reading` did. -/
theorem reading_cases {s s' : Pid Fl} {v : Fl} {now : Int} {f : Bool} (h : PID.newReading s v now = .ok (f, s')) :
    (∃ x, msSub now s.lastTime = .ok x ∧ Pid.msGe x s.sampling = .ok f) ∧ s' = if f then { s with input := v }.compute now else { s with input := v } := by
  obtain ⟨x, h1, h2⟩ := res_bind h
  obtain ⟨g, h3, h4⟩ := res_bind h2
  cases g with
  | true => obtain ⟨rfl, rfl⟩ := Prod.mk.inj (Except.ok.inj h4); exact ⟨⟨x, h1, h3⟩, rfl⟩
  | false => obtain ⟨rfl, rfl⟩ := Prod.mk.inj (Except.ok.inj h4); exact ⟨⟨x, h1, h3⟩, rfl⟩

/-- **C188** in single precision, for every state of a controller whose gains are not negative: of two readings that it may get, the larger one does not give a larger response; with gains that are not
positive (reverse direction) not a smaller one. That either response is not a number is the only exception. -/
theorem C188_reading {up : Bool} {s s1 s2 : Pid Fl} (h : s.Acts up) {v w : Fl} (hvw : Fl.le v w = true) {now : Int} {f g : Bool}
    (h1 : PID.newReading s v now = .ok (f, s1)) (h2 : PID.newReading s w now = .ok (g, s2)) (n1 : s1.output ≠ .nan) (n2 : s2.output ≠ .nan) :
    f = g ∧ if up then Fl.le s2.output s1.output = true else Fl.le s1.output s2.output = true := by
  obtain ⟨⟨x, a1, a2⟩, e1⟩ := reading_cases h1
  obtain ⟨⟨y, b1, b2⟩, e2⟩ := reading_cases h2
  rw [a1] at b1
  cases b1
  rw [a2] at b2
  cases b2
  refine ⟨rfl, ?_⟩
  subst e1 e2
  cases f with
  | false => cases up <;> exact below_refl _ n1 n1
  | true =>
    have hb : Below v w := .of_le hvw
    have he : Below (Fl.sub s.setpoint w) (Fl.sub s.setpoint v) := (below_refl _).sub hb
    have hd : Below (Fl.sub v s.lastReading) (Fl.sub w s.lastReading) := hb.sub (below_refl _)
    have m : ∀ k ∈ [s.kp, s.ki, s.kd], ∀ {x y : Fl}, x.Ok → y.Ok → Below x y → _ := fun k hk {x y} ox oy hxy => h.mul hk ox oy hxy
    cases up with
    | true =>
      exact (Pid.compute_below (s := { s with input := v }) (t := { s with input := w }) h.limits rfl rfl rfl (below_refl _)
        (m s.ki (by simp) (sub_ok _ _) (sub_ok _ _) he) (fun _ => m s.kp (by simp) (sub_ok _ _) (sub_ok _ _) he)
        (fun _ => m s.kp (by simp) (sub_ok _ _) (sub_ok _ _) hd) (m s.kd (by simp) (sub_ok _ _) (sub_ok _ _) hd)).2 n2 n1
    | false =>
      exact (Pid.compute_below (s := { s with input := w }) (t := { s with input := v }) h.limits rfl rfl rfl (below_refl _)
        (m s.ki (by simp) (sub_ok _ _) (sub_ok _ _) he) (fun _ => m s.kp (by simp) (sub_ok _ _) (sub_ok _ _) he)
        (fun _ => m s.kp (by simp) (sub_ok _ _) (sub_ok _ _) hd) (m s.kd (by simp) (sub_ok _ _) (sub_ok _ _) hd)).2 n1 n2

/-- **C188** for setpoints: the larger one of two does not give a smaller response to the next reading (`up`), or not a larger one. -/
theorem C188_setpoint {up : Bool} {s s1 s2 : Pid Fl} (h : s.Acts up) {p q : Fl} (hpq : Fl.le p q = true) {v : Fl} {now : Int} {f g : Bool}
    (h1 : PID.newReading { s with setpoint := p } v now = .ok (f, s1)) (h2 : PID.newReading { s with setpoint := q } v now = .ok (g, s2)) (n1 : s1.output ≠ .nan) (n2 : s2.output ≠ .nan) :
    f = g ∧ if up then Fl.le s1.output s2.output = true else Fl.le s2.output s1.output = true := by
  obtain ⟨⟨x, a1, a2⟩, e1⟩ := reading_cases h1
  obtain ⟨⟨y, b1, b2⟩, e2⟩ := reading_cases h2
  rw [a1] at b1
  cases b1
  rw [a2] at b2
  cases b2
  refine ⟨rfl, ?_⟩
  subst e1 e2
  cases f with
  | false => cases up <;> exact below_refl _ n1 n1
  | true =>
    have he : Below (Fl.sub p v) (Fl.sub q v) := (Below.of_le hpq).sub (below_refl _)
    have m : ∀ k ∈ [s.kp, s.ki, s.kd], ∀ {x y : Fl}, x.Ok → y.Ok → Below x y → _ := fun k hk {x y} ox oy hxy => h.mul hk ox oy hxy
    cases up with
    | true =>
      exact (Pid.compute_below (s := { s with setpoint := q, input := v }) (t := { s with setpoint := p, input := v }) h.limits rfl rfl rfl (below_refl _)
        (m s.ki (by simp) (sub_ok _ _) (sub_ok _ _) he) (fun _ => m s.kp (by simp) (sub_ok _ _) (sub_ok _ _) he) (fun _ => below_refl _) (below_refl _)).2 n1 n2
    | false =>
      exact (Pid.compute_below (s := { s with setpoint := p, input := v }) (t := { s with setpoint := q, input := v }) h.limits rfl rfl rfl (below_refl _)
        (m s.ki (by simp) (sub_ok _ _) (sub_ok _ _) he) (fun _ => m s.kp (by simp) (sub_ok _ _) (sub_ok _ _) he) (fun _ => below_refl _) (below_refl _)).2 n2 n1

/-- Two series of readings at the same times, the first nowhere above the second. -/
def ReadingsBelow (rs qs : List (Int × Fl)) : Prop := List.Forall₂ (fun r q => r.1 = q.1 ∧ Fl.le r.2 q.2 = true) rs qs

/-- Nothing in a controller acts on changes of the reading. -/
structure Pid.Static (s : Pid Fl) : Prop where
  kd : s.kd.fin = true ∧ s.kd.val = 0 ∧ s.kd.Ok
  kp : s.onMeasurement = true → s.kp.fin = true ∧ s.kp.val = 0 ∧ s.kp.Ok

/-- Two controllers with the same settings, the second nowhere ahead. -/
structure Pid.Behind (s t : Pid Fl) : Prop where
  same : t.kp = s.kp ∧ t.ki = s.ki ∧ t.kd = s.kd ∧ t.lo = s.lo ∧ t.hi = s.hi ∧ t.onMeasurement = s.onMeasurement ∧ t.setpoint = s.setpoint ∧ t.lastTime = s.lastTime ∧ t.sampling = s.sampling
  cumulative : Below t.cumulative s.cumulative
  output : Below t.output s.output

theorem Pid.Behind.readings {rs qs : List (Int × Fl)} : ∀ {s t s1 t1 : Pid Fl}, s.Behind t → s.Static → Fl.le s.lo s.hi = true →
    List.Forall₂ (fun r q => r.1 = q.1 ∧ ∀ k ∈ [s.kp, s.ki], Below (Fl.mul k (Fl.sub s.setpoint q.2)) (Fl.mul k (Fl.sub s.setpoint r.2))) rs qs → ∀ {fs gs : List Bool},
    PID.readings s rs = .ok (fs, s1) → PID.readings t qs = .ok (gs, t1) → fs = gs ∧ s1.Behind t1 := by
  induction rs generalizing qs with
  | nil =>
    intro s t s1 t1 hb _ _ hq fs gs h1 h2
    cases hq
    obtain ⟨rfl, rfl⟩ := Prod.mk.inj (Except.ok.inj h1)
    obtain ⟨rfl, rfl⟩ := Prod.mk.inj (Except.ok.inj h2)
    exact ⟨rfl, hb⟩
  | cons r rs ih =>
    intro s t s1 t1 hb hs hl hq fs gs h1 h2
    obtain ⟨now, v⟩ := r
    cases hq with
    | @cons _ q _ qs hr hq =>
      obtain ⟨now', w⟩ := q
      obtain ⟨rfl, hk⟩ : now = now' ∧ _ := hr
      obtain ⟨⟨f, s'⟩, a1, a2⟩ := res_bind h1
      obtain ⟨⟨fs', s''⟩, a3, a4⟩ := res_bind a2
      obtain ⟨rfl, rfl⟩ := Prod.mk.inj (Except.ok.inj a4)
      obtain ⟨⟨g, t'⟩, b1, b2⟩ := res_bind h2
      obtain ⟨⟨gs', t''⟩, b3, b4⟩ := res_bind b2
      obtain ⟨rfl, rfl⟩ := Prod.mk.inj (Except.ok.inj b4)
      obtain ⟨⟨x, c1, c2⟩, e1⟩ := reading_cases a1
      obtain ⟨⟨y, d1, d2⟩, e2⟩ := reading_cases b1
      obtain ⟨k1, k2, k3, k4, k5, k6, k7, k8, k9⟩ := hb.same
      rw [k8, c1] at d1
      cases d1
      rw [k9, c2] at d2
      cases d2
      have next : s'.Behind t' ∧ s'.Static ∧ s'.lo = s.lo ∧ s'.hi = s.hi ∧ s'.kp = s.kp ∧ s'.ki = s.ki ∧ s'.setpoint = s.setpoint := by
        subst e1 e2
        cases f with
        | false => exact ⟨⟨⟨k1, k2, k3, k4, k5, k6, k7, k8, k9⟩, hb.cumulative, hb.output⟩, ⟨hs.kd, hs.kp⟩, rfl, rfl, rfl, rfl, rfl⟩
        | true =>
          have c := Pid.compute_below (s := { s with input := v }) (t := { t with input := w }) (now := now) hl k4 k5 k6 hb.cumulative
            (by show Below (Fl.mul t.ki (Fl.sub t.setpoint w)) (Fl.mul s.ki (Fl.sub s.setpoint v)); rw [k2, k7]; exact hk s.ki (by simp))
            (fun _ => by show Below (Fl.mul t.kp (Fl.sub t.setpoint w)) (Fl.mul s.kp (Fl.sub s.setpoint v)); rw [k1, k7]; exact hk s.kp (by simp))
            (fun om => by
              show Below (Fl.mul s.kp _) (Fl.mul t.kp _)
              rw [k1]
              exact below_zero (hs.kp om).1 (hs.kp om).2.1 (hs.kp om).2.2)
            (by
              show Below (Fl.mul s.kd _) (Fl.mul t.kd _)
              rw [k3]
              exact below_zero hs.kd.1 hs.kd.2.1 hs.kd.2.2)
          exact ⟨⟨⟨k1, k2, k3, k4, k5, k6, k7, rfl, k9⟩, c.1, c.2⟩, ⟨hs.kd, hs.kp⟩, rfl, rfl, rfl, rfl, rfl⟩
      obtain ⟨n1, n2, n3, n4, n5, n6, n7⟩ := next
      obtain ⟨rfl, r2⟩ := ih n1 n2 (by rw [n3, n4]; exact hl) (by rw [n5, n6, n7]; exact hq) a3 b3
      exact ⟨rfl, r2⟩

/-- **C188** over whole series, in single precision: a controller without derivative part and with the proportional part, if any, on the error gets one of two series of readings at the same times. If one
series is nowhere above the other, it computes at the same readings, and the response after the larger series is not larger (`up`), or not smaller. Missing: controllers that act on changes
(`C188_derivative_counterexample`). -/
theorem C188_series_partial {up : Bool} {rs qs : List (Int × Fl)} (hrq : ReadingsBelow rs qs) : ∀ {s s1 s2 : Pid Fl}, s.Acts up → s.Static → ∀ {fs gs : List Bool},
    PID.readings s rs = .ok (fs, s1) → PID.readings s qs = .ok (gs, s2) → s1.output ≠ .nan → s2.output ≠ .nan →
    fs = gs ∧ if up then Fl.le s2.output s1.output = true else Fl.le s1.output s2.output = true := by
  intro s s1 s2 h hs fs gs h1 h2 n1 n2
  have self : s.Behind s := ⟨⟨rfl, rfl, rfl, rfl, rfl, rfl, rfl, rfl, rfl⟩, below_refl _, below_refl _⟩
  have step : ∀ k ∈ [s.kp, s.ki], ∀ {v w : Fl}, Fl.le v w = true → _ := fun k hk {v w} hvw =>
    h.mul (k := k) (by simp only [List.mem_cons, List.not_mem_nil, or_false] at hk ⊢; tauto) (sub_ok s.setpoint w) (sub_ok s.setpoint v) ((below_refl _).sub (.of_le hvw))
  cases up with
  | true =>
    obtain ⟨e, b⟩ := self.readings hs h.limits (hrq.imp fun r q hr => ⟨hr.1, fun k hk => step k hk hr.2⟩) h1 h2
    exact ⟨e, b.output n2 n1⟩
  | false =>
    obtain ⟨e, b⟩ := self.readings hs h.limits (hrq.flip.imp fun q r hr => ⟨hr.1.symm, fun k hk => step k hk hr.2⟩) h2 h1
    exact ⟨e.symm, b.output n1 n2⟩

/-- A controller for 50, with limits 0 and 100 and one reading every 100 ms. -/
def dirPid (reverse : Bool) (kp ki kd : Rat) : Pid Fl :=
  { setpoint := Arith.ofRat 50, kp := Arith.ofRat kp, ki := Arith.ofRat ki, kd := Arith.ofRat kd, input := fzero, output := fzero, lastReading := fzero, cumulative := fzero, lo := fzero,
    hi := Arith.ofRat 100, onMeasurement := false, lastTime := 0, sampling := 100, reverse }

theorem dirPid_acts (up : Bool) {kp ki kd : Rat} (h : ∀ k ∈ [kp, ki, kd], if up then Fl.le fzero (Arith.ofRat k : Fl) = true else Fl.le (Arith.ofRat k : Fl) fzero = true) :
    (dirPid (!up) kp ki kd).Acts up := by
  refine ⟨?_, show Fl.le (fzero : Fl) (Arith.ofRat 100) = true by decide +kernel⟩
  intro k hk
  simp only [dirPid, List.mem_cons, List.not_mem_nil, or_false] at hk
  rcases hk with rfl | rfl | rfl
  · exact ⟨ofRat_ok _, h kp (by simp)⟩
  · exact ⟨ofRat_ok _, h ki (by simp)⟩
  · exact ⟨ofRat_ok _, h kd (by simp)⟩

theorem output_of {s : Pid Fl} {rs : List (Int × Fl)} {x : Fl} (h : (PID.readings s rs).map (·.2.output) = .ok x) : ∃ fs s1, PID.readings s rs = .ok (fs, s1) ∧ s1.output = x := by
  cases e : PID.readings s rs with
  | error => rw [e] at h; cases h
  | ok r => rw [e] at h; exact ⟨r.1, r.2, rfl, Except.ok.inj h⟩

/-- **C188** does not hold for series with a derivative part: of two equal readings, the one after a larger reading gets the larger response, as the derivative part sees a fall. -/
theorem C188_derivative_counterexample : ∃ (s : Pid Fl) (rs qs : List (Int × Fl)) (fs gs : List Bool) (s1 s2 : Pid Fl), s.Acts true ∧ ReadingsBelow rs qs ∧
    PID.readings s rs = .ok (fs, s1) ∧ PID.readings s qs = .ok (gs, s2) ∧ s1.output ≠ .nan ∧ s2.output ≠ .nan ∧ Fl.le s2.output s1.output = false := by
  obtain ⟨fs, s1, h1, o1⟩ := output_of (s := dirPid false 1 0 1) (rs := [(100, Arith.ofRat 20), (200, Arith.ofRat 20)]) (x := Arith.ofRat 30) (by decide +kernel)
  obtain ⟨gs, s2, h2, o2⟩ := output_of (s := dirPid false 1 0 1) (rs := [(100, Arith.ofRat 30), (200, Arith.ofRat 20)]) (x := Arith.ofRat 40) (by decide +kernel)
  refine ⟨_, _, _, fs, gs, s1, s2, dirPid_acts true (by decide +kernel), ?_, h1, h2, ?_, ?_, ?_⟩
  · exact .cons ⟨rfl, by decide +kernel⟩ (.cons ⟨rfl, by decide +kernel⟩ .nil)
  · rw [o1]; decide +kernel
  · rw [o2]; decide +kernel
  · rw [o1, o2]; decide +kernel

/-! Cases that meet the hypotheses. -/

/-- All three parts: 20 gives 30 + 15 - 20 = 25, and 30 gives 20 + 10 - 30, limited to 0. -/
example : ∃ (s : Pid Fl) (fs gs : List Bool) (s1 s2 : Pid Fl), s.Acts true ∧ PID.readings s [(100, Arith.ofRat 20)] = .ok (fs, s1) ∧ PID.readings s [(100, Arith.ofRat 30)] = .ok (gs, s2) ∧
    s1.output = Arith.ofRat 25 ∧ s2.output = Arith.ofRat 0 := by
  obtain ⟨fs, s1, h1, o1⟩ := output_of (s := dirPid false 1 (1 / 2) 1) (rs := [(100, Arith.ofRat 20)]) (x := Arith.ofRat 25) (by decide +kernel)
  obtain ⟨gs, s2, h2, o2⟩ := output_of (s := dirPid false 1 (1 / 2) 1) (rs := [(100, Arith.ofRat 30)]) (x := Arith.ofRat 0) (by decide +kernel)
  exact ⟨_, fs, gs, s1, s2, dirPid_acts true (by decide +kernel), h1, h2, o1, o2⟩

/-- Reverse: a reading of 70 gives 20, one of 60 gives 10. -/
example : (dirPid true (-1) 0 0).Acts false ∧ (PID.readings (dirPid true (-1) 0 0) [(100, Arith.ofRat 60)]).map (·.2.output) = .ok (Arith.ofRat 10) ∧
    (PID.readings (dirPid true (-1) 0 0) [(100, Arith.ofRat 70)]).map (·.2.output) = .ok (Arith.ofRat 20) :=
  ⟨dirPid_acts false (by decide +kernel), by decide +kernel, by decide +kernel⟩

/-- Proportional and integral part, two readings that count and one that comes too early. -/
example : (dirPid false 1 (1 / 2) 0).Acts true ∧ (dirPid false 1 (1 / 2) 0).Static ∧
    ReadingsBelow [(100, Arith.ofRat 40), (150, Arith.ofRat 1), (200, Arith.ofRat 40)] [(100, Arith.ofRat 44), (150, Arith.ofRat 2), (200, Arith.ofRat 40)] ∧
    (PID.readings (dirPid false 1 (1 / 2) 0) [(100, Arith.ofRat 40), (150, Arith.ofRat 1), (200, Arith.ofRat 40)]).map (fun r => (r.1, r.2.output)) = .ok ([true, false, true], Arith.ofRat 20) ∧
    (PID.readings (dirPid false 1 (1 / 2) 0) [(100, Arith.ofRat 44), (150, Arith.ofRat 2), (200, Arith.ofRat 40)]).map (fun r => (r.1, r.2.output)) = .ok ([true, false, true], Arith.ofRat 18) := by
  refine ⟨dirPid_acts true (by decide +kernel), ⟨⟨by decide +kernel, by decide +kernel, ofRat_ok 0⟩, fun h => by cases h⟩, ?_, by decide +kernel, by decide +kernel⟩
  exact .cons ⟨rfl, by decide +kernel⟩ (.cons ⟨rfl, by decide +kernel⟩ (.cons ⟨rfl, by decide +kernel⟩ .nil))

end Spine
