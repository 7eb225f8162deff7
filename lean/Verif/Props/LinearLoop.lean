import Verif.Props.ClosedLoop
import Verif.Proofs.Jury
/-!
# C171: the controller on any linear process

In exact arithmetic, with derivative part.
-/

namespace Spine
open Pid Polynomial Recurrence

/-- A run of `n` computations of a controller on a process: every reading leads to a computation (C45), whose output acts on the process until the next. -/
def LinearLoop.Runs {σ : Type} (p : Controlled σ) (s : ℕ → Pid ℚ) (z : ℕ → σ) (now : ℕ → Int) (n : ℕ) : Prop :=
  ∀ k < n, PID.newReading (s k) (p.read (z k)) (now k) = .ok (true, s (k + 1)) ∧ z (k + 1) = p.next (z k) (s (k + 1)).output

namespace LinearLoop

variable {σ : Type}

/-! ## The algebra -/

theorem loop_eq {A B : ℚ[X]} {kp ki kd w r : ℚ} {x u : ℕ → ℚ} (hp : ∀ k, act A x k = act B u k + w)
    (hc : ∀ k, u (k + 2) - u (k + 1) = ki * (r - x (k + 2)) - kp * (x (k + 2) - x (k + 1)) - kd * (x (k + 2) - 2 * x (k + 1) + x k)) :
    act (loopPoly A B kp ki kd) (fun k => r - x k) = 0 ∧
    ∀ v, B.eval 1 * v = A.eval 1 * r - w → act (loopPoly A B kp ki kd) (fun k => u k - v) = 0 := by
  obtain ⟨D, hD⟩ : ∃ D : ℚ[X], D = X * (X - 1) := ⟨_, rfl⟩
  obtain ⟨G, hG⟩ : ∃ G : ℚ[X], G = C ki * X ^ 2 + C kp * (X * (X - 1)) + C kd * (X - 1) ^ 2 := ⟨_, rfl⟩
  have hL : loopPoly A B kp ki kd = A * D + B * G := by rw [loopPoly, hD, hG]
  have one : (1 : ℚ[X]) = C 1 := C_1.symm
  have actD : ∀ f : ℕ → ℚ, ∀ k, act D f k = f (k + 2) - f (k + 1) := by
    intro f k
    rw [hD, act_mul, act_X, act_sub, Pi.sub_apply, act_X, act_one]
  have actX1 : ∀ f : ℕ → ℚ, ∀ k, act (X - 1) f k = f (k + 1) - f k := by
    intro f k
    rw [act_sub, Pi.sub_apply, act_X, act_one]
  have actG : ∀ f : ℕ → ℚ, ∀ k, act G f k = ki * f (k + 2) + kp * (f (k + 2) - f (k + 1)) + kd * (f (k + 2) - 2 * f (k + 1) + f k) := by
    intro f k
    rw [hG, ← hD, act_add, act_add, Pi.add_apply, Pi.add_apply, act_mul, act_mul, act_mul, act_C, act_C, act_C, actD, pow_two, pow_two, act_mul, act_mul,
      act_X, act_X, actX1, actX1, actX1]
    ring
  have hu : act D u = act G (fun k => r - x k) := by
    funext k
    rw [actD, actG, hc]
    ring
  have hD1 : D.eval 1 = 0 := by rw [hD]; simp
  have hG1 : G.eval 1 = ki := by rw [hG]; simp
  have hp' : act A x = act B u + (fun _ => w) := funext hp
  have he : (fun k => r - x k) = (fun _ => r) - x := rfl
  constructor
  · rw [hL, act_add, mul_comm A D, act_mul, act_mul, ← hu, ← act_mul B D, mul_comm B D, act_mul, he, act_sub_right, act_const, hp', ← sub_sub,
      act_sub_right, act_sub_right, act_const, act_const, hD1]
    funext k
    simp
  · intro v hv
    have h1 : act (A * D + B * G) u = fun _ => ki * (A.eval 1 * r - w) := by
      rw [act_add, act_mul, act_mul, hu, act_comm B G]
      have h2 : act B u = act A x - (fun _ => w) := by rw [hp']; simp
      rw [h2, act_comm A G, act_sub_right, ← add_sub_assoc, ← act_add_right, ← act_add_right, he]
      simp only [sub_add_cancel]
      rw [act_const, act_const, act_const, hG1]
      funext k
      simp only [Pi.sub_apply]
      ring
    have h3 : (fun k => u k - v) = u - (fun _ => v) := rfl
    rw [hL, h3, act_sub_right, h1, act_const]
    funext k
    simp only [Pi.sub_apply, eval_add, eval_mul, hD1, hG1, Pi.zero_apply]
    linear_combination -ki * hv

theorem linear_act {p : Controlled σ} {A B : ℚ[X]} {w : ℚ} (h : p.Linear A B w) {z : ℕ → σ} {u : ℕ → ℚ} (hz : ∀ k, z (k + 1) = p.next (z k) (u k)) (k : ℕ) :
    act A (fun k => p.read (z k)) k = act B u k + w := by
  rw [act_apply, act_apply]
  exact h z u hz k

/-! ## One computation -/

theorem clamp_strict {lo hi x : ℚ} (h1 : lo < clamp lo hi x) (h2 : clamp lo hi x < hi) : clamp lo hi x = x := by
  simp only [clamp, Arith.lt, decide_eq_true_eq] at *
  split_ifs at * <;> first | rfl | (exfalso; linarith)

/-- What the computation adds up, before it is cut off. -/
def sum (s : Pid ℚ) (x : ℚ) : ℚ := s.cumulative + s.ki * (s.setpoint - x) - s.kp * (x - s.lastReading)

theorem computed {s s' : Pid ℚ} {x : ℚ} {now : Int} (hm : s.onMeasurement = true) (h : PID.newReading s x now = .ok (true, s')) :
    s'.cumulative = clamp s.lo s.hi (sum s x) ∧ s'.output = clamp s.lo s.hi (s'.cumulative - s.kd * (x - s.lastReading)) ∧ s'.lastReading = x ∧
    s'.kp = s.kp ∧ s'.ki = s.ki ∧ s'.kd = s.kd ∧ s'.setpoint = s.setpoint ∧ s'.lo = s.lo ∧ s'.hi = s.hi ∧ s'.onMeasurement = true := by
  rw [newReading_true h]
  simp only [compute, sum, hm, if_true, Arith.add, Arith.sub, Arith.mul, Arith.ofRat, fzero, zero_add, true_and, and_self]

/-- The settings of a controller do not change while it runs. -/
structure Settings (s t : Pid ℚ) : Prop where
  kp : t.kp = s.kp
  ki : t.ki = s.ki
  kd : t.kd = s.kd
  setpoint : t.setpoint = s.setpoint
  lo : t.lo = s.lo
  hi : t.hi = s.hi
  mode : t.onMeasurement = s.onMeasurement

theorem same {p : Controlled σ} {s : ℕ → Pid ℚ} {z : ℕ → σ} {now : ℕ → Int} {n : ℕ} (h : Runs p s z now n) (hm : (s 0).onMeasurement = true) (k : ℕ) (hk : k ≤ n) :
    Settings (s 0) (s k) := by
  induction k with
  | zero => exact ⟨rfl, rfl, rfl, rfl, rfl, rfl, rfl⟩
  | succ k ih =>
    have ih := ih (by omega)
    obtain ⟨-, -, -, h1, h2, h3, h4, h5, h6, h7⟩ := computed (by rw [ih.mode, hm]) (h k (by omega)).1
    exact ⟨by rw [h1, ih.kp], by rw [h2, ih.ki], by rw [h3, ih.kd], by rw [h4, ih.setpoint], by rw [h5, ih.lo], by rw [h6, ih.hi], by rw [h7, hm]⟩

/-- The controller is not at its limits. -/
def OffLimits (s : Pid ℚ) : Prop := s.lo < s.cumulative ∧ s.cumulative < s.hi ∧ s.lo < s.output ∧ s.output < s.hi

/-! ## The loop without limits -/

/-- The loop, were there no limits: the process, what is added up, and the last reading. -/
def free (p : Controlled σ) (kp ki kd r : ℚ) (z : σ) (c l : ℚ) : ℕ → σ × ℚ × ℚ
  | 0 => (z, c, l)
  | k + 1 =>
    let (z, c, l) := free p kp ki kd r z c l k
    let x := p.read z
    let c' := c + ki * (r - x) - kp * (x - l)
    (p.next z (c' - kd * (x - l)), c', x)

section
variable (p : Controlled σ) (kp ki kd r : ℚ) (z : σ) (c l : ℚ)

/-- Its readings. -/
def freeRead (k : ℕ) : ℚ := p.read (free p kp ki kd r z c l k).1

/-- Its outputs. -/
def freeOut (k : ℕ) : ℚ := (free p kp ki kd r z c l (k + 1)).2.1 - kd * (freeRead p kp ki kd r z c l k - (free p kp ki kd r z c l k).2.2)

theorem free_next (k : ℕ) : (free p kp ki kd r z c l (k + 1)).1 = p.next (free p kp ki kd r z c l k).1 (freeOut p kp ki kd r z c l k) := rfl

theorem free_last (k : ℕ) : (free p kp ki kd r z c l (k + 1)).2.2 = freeRead p kp ki kd r z c l k := rfl

theorem free_sum (k : ℕ) : (free p kp ki kd r z c l (k + 1)).2.1 = (free p kp ki kd r z c l k).2.1 + ki * (r - freeRead p kp ki kd r z c l k) -
    kp * (freeRead p kp ki kd r z c l k - (free p kp ki kd r z c l k).2.2) := rfl

theorem free_loop {A B : ℚ[X]} {w : ℚ} (h : p.Linear A B w) :
    act (loopPoly A B kp ki kd) (fun k => r - freeRead p kp ki kd r z c l k) = 0 ∧
    ∀ v, B.eval 1 * v = A.eval 1 * r - w → act (loopPoly A B kp ki kd) (fun k => freeOut p kp ki kd r z c l k - v) = 0 := by
  refine loop_eq (w := w) (fun k => linear_act h (fun k => free_next p kp ki kd r z c l k) k) (fun k => ?_)
  simp only [freeOut]
  rw [free_sum p kp ki kd r z c l (k + 2), show k + 2 = k + 1 + 1 from rfl, free_last p kp ki kd r z c l (k + 1), free_last p kp ki kd r z c l k]
  ring

end

/-- The loop goes on as if there were no limits. -/
def Agrees (p : Controlled σ) (s : ℕ → Pid ℚ) (z : ℕ → σ) (k : ℕ) : Prop :=
  free p (s 0).kp (s 0).ki (s 0).kd (s 0).setpoint (z 0) (s 0).cumulative (s 0).lastReading k = (z k, (s k).cumulative, (s k).lastReading)

theorem agrees_next {p : Controlled σ} {s : ℕ → Pid ℚ} {z : ℕ → σ} {now : ℕ → Int} {n : ℕ} (h : Runs p s z now n) (hm : (s 0).onMeasurement = true) {k : ℕ} (hk : k < n)
    (ha : Agrees p s z k)
    (hc : (s (k + 1)).cumulative = sum (s k) (p.read (z k)))
    (ho : (s (k + 1)).output = (s (k + 1)).cumulative - (s k).kd * (p.read (z k) - (s k).lastReading)) : Agrees p s z (k + 1) := by
  have hs := same h hm k hk.le
  obtain ⟨-, -, h3, -⟩ := computed (by rw [hs.mode, hm]) (h k hk).1
  unfold Agrees at ha ⊢
  rw [free, ha, h3, (h k hk).2, ho, hc, sum, hs.kp, hs.ki, hs.kd, hs.setpoint]

theorem agrees_off {p : Controlled σ} {s : ℕ → Pid ℚ} {z : ℕ → σ} {now : ℕ → Int} {n : ℕ} (h : Runs p s z now n) (hm : (s 0).onMeasurement = true)
    (hi : ∀ k < n, OffLimits (s (k + 1))) (k : ℕ) (hk : k ≤ n) : Agrees p s z k := by
  induction k with
  | zero => rfl
  | succ k ih =>
    have hs := same h hm k (by omega)
    obtain ⟨h1, h2, -, -, -, -, -, h5, h6, -⟩ := computed (by rw [hs.mode, hm]) (h k hk).1
    obtain ⟨i1, i2, i3, i4⟩ := hi k hk
    rw [h5] at i1 i3
    rw [h6] at i2 i4
    refine agrees_next h hm hk (ih (by omega)) ?_ ?_
    · rw [h1]; exact clamp_strict (by rw [← h1]; exact i1) (by rw [← h1]; exact i2)
    · rw [h2]; exact clamp_strict (by rw [← h2]; exact i3) (by rw [← h2]; exact i4)

end LinearLoop

open LinearLoop

/-- **C171.** A controller, with or without a derivative part, on any linear process, with gains for which all roots of the characteristic polynomial of the
loop lie inside the unit circle, brings the process to the setpoint while it is not at its limits: there are a factor `q` below 1 and a number `K`, the
same for all runs, such that after `k` computations the error is at most `K * q ^ k` times as large as at first. -/
theorem C171_settles {A B : ℚ[X]} {s₀ : Pid ℚ} (hm : s₀.onMeasurement = true) (hd : Damped (loopPoly A B s₀.kp s₀.ki s₀.kd)) :
    ∃ K q : ℚ, 0 < q ∧ q < 1 ∧ ∀ (σ : Type) (p : Controlled σ) (w : ℚ) (s : ℕ → Pid ℚ) (z : ℕ → σ) (now : ℕ → Int) (n : ℕ), p.Linear A B w → Runs p s z now n →
      Settings s₀ (s 0) → (∀ k < n, OffLimits (s (k + 1))) → (loopPoly A B s₀.kp s₀.ki s₀.kd).natDegree ≤ n →
      ∀ G, 0 ≤ G → (∀ k < (loopPoly A B s₀.kp s₀.ki s₀.kd).natDegree, |s₀.setpoint - p.read (z k)| ≤ G) →
        ∀ k ≤ n, |s₀.setpoint - p.read (z k)| ≤ K * G * q ^ k := by
  obtain ⟨K, q, -, hq0, hq1, hK⟩ := dies_out hd
  refine ⟨K, q, hq0, hq1, fun σ p w s z now n hp h hs hi hn G hG hfirst => ?_⟩
  have ha := agrees_off h (by rw [hs.mode, hm]) hi
  have hread : ∀ k ≤ n, freeRead p (s 0).kp (s 0).ki (s 0).kd (s 0).setpoint (z 0) (s 0).cumulative (s 0).lastReading k = p.read (z k) := fun k hk => by
    have := ha k hk
    unfold Agrees at this
    rw [freeRead, this]
  have h1 := hK _ G (by rw [← hs.kp, ← hs.ki, ← hs.kd]; exact (free_loop p _ _ _ (s 0).setpoint (z 0) (s 0).cumulative (s 0).lastReading hp).1) hG (fun k hk => by
    rw [hread k (by omega), hs.setpoint]
    exact hfirst k hk)
  intro k hk
  have := h1 k
  rwa [hread k hk, hs.setpoint] at this

/-- **C171**: it does not get to its limits if it starts near enough to rest. For all settings with the roots inside the unit circle, and all processes that can be
held at the setpoint by an output `v` within the limits, there is a distance such that every run whose first readings and outputs are within this distance
of the setpoint and of `v` stays off the limits to its end, and settles. -/
theorem C171_near {σ : Type} {p : Controlled σ} {A B : ℚ[X]} {w v : ℚ} {s₀ : Pid ℚ} (hp : p.Linear A B w) (hm : s₀.onMeasurement = true)
    (hd : Damped (loopPoly A B s₀.kp s₀.ki s₀.kd)) (hv : B.eval 1 * v = A.eval 1 * s₀.setpoint - w) (hlo : s₀.lo < v) (hhi : v < s₀.hi) :
    ∃ d K q : ℚ, 0 < d ∧ 0 < q ∧ q < 1 ∧ ∀ (s : ℕ → Pid ℚ) (z : ℕ → σ) (now : ℕ → Int) (n : ℕ), Runs p s z now n → Settings s₀ (s 0) →
      (loopPoly A B s₀.kp s₀.ki s₀.kd).natDegree ≤ n → |s₀.setpoint - (s 0).lastReading| ≤ d →
      (∀ k < (loopPoly A B s₀.kp s₀.ki s₀.kd).natDegree, |s₀.setpoint - p.read (z k)| ≤ d ∧ |(s (k + 1)).output - v| ≤ d) →
      (∀ k < n, OffLimits (s (k + 1))) ∧ ∀ k ≤ n, |s₀.setpoint - p.read (z k)| ≤ K * q ^ k := by
  obtain ⟨K, q, hK1, hq0, hq1, hK'⟩ := dies_out hd
  have hK : ∀ (f : ℕ → ℚ) (G : ℚ), act (loopPoly A B s₀.kp s₀.ki s₀.kd) f = 0 → 0 ≤ G → (∀ i < (loopPoly A B s₀.kp s₀.ki s₀.kd).natDegree, |f i| ≤ G) →
      ∀ k, |f k| ≤ K * G := fun f G h1 h2 h3 k =>
    (hK' f G h1 h2 h3 k).trans (mul_le_of_le_one_right (mul_nonneg (by linarith) h2) (pow_le_one₀ hq0.le hq1.le))
  obtain ⟨m, hm0, hm1, hm2⟩ : ∃ m : ℚ, 0 < m ∧ m ≤ v - s₀.lo ∧ m ≤ s₀.hi - v :=
    ⟨min (v - s₀.lo) (s₀.hi - v), lt_min (by linarith) (by linarith), min_le_left _ _, min_le_right _ _⟩
  have hkd := abs_nonneg s₀.kd
  have hT : 0 < K * (1 + 2 * |s₀.kd|) := by nlinarith
  obtain ⟨d, hd0⟩ : ∃ d : ℚ, d = m / 2 / (K * (1 + 2 * |s₀.kd|)) := ⟨_, rfl⟩
  have hdpos : 0 < d := by rw [hd0]; positivity
  have hdm : K * d * (1 + 2 * |s₀.kd|) = m / 2 := by rw [hd0]; field_simp
  have hKd : d ≤ K * d := by nlinarith
  refine ⟨d, K * d, q, hdpos, hq0, hq1, fun s z now n h hs hn hlast hfirst => ?_⟩
  have hm' : (s 0).onMeasurement = true := by rw [hs.mode, hm]
  have hall : ∀ k ≤ n, Settings s₀ (s k) := fun k hk => by
    have := same h hm' k hk
    exact ⟨by rw [this.kp, hs.kp], by rw [this.ki, hs.ki], by rw [this.kd, hs.kd], by rw [this.setpoint, hs.setpoint], by rw [this.lo, hs.lo],
      by rw [this.hi, hs.hi], by rw [this.mode, hs.mode]⟩
  -- what is near `v` is not cut off
  have near : ∀ {y : ℚ}, |y - v| ≤ m / 2 → s₀.lo < y ∧ y < s₀.hi := fun hy => by
    rw [abs_le] at hy
    constructor <;> linarith
  have keep : ∀ {y : ℚ}, |clamp s₀.lo s₀.hi y - v| ≤ m / 2 → clamp s₀.lo s₀.hi y = y := fun hy => clamp_strict (near hy).1 (near hy).2
  have keep' : ∀ {y : ℚ}, |y - v| ≤ m / 2 → clamp s₀.lo s₀.hi y = y := fun hy => ClosedLoop.clamp_id (near hy).1.le (near hy).2.le
  have small : K * d ≤ m / 2 := by nlinarith [mul_nonneg (by linarith : (0 : ℚ) ≤ K * d) hkd]
  have part : ∀ {a b D : ℚ}, |s₀.setpoint - a| ≤ D → |s₀.setpoint - b| ≤ D → |s₀.kd * (a - b)| ≤ 2 * |s₀.kd| * D := fun {a b D} ha hb => by
    rw [abs_mul]
    have : |a - b| ≤ 2 * D := by rw [abs_le] at *; constructor <;> linarith
    nlinarith
  -- the first computations
  have first : ∀ k ≤ (loopPoly A B s₀.kp s₀.ki s₀.kd).natDegree, Agrees p s z k ∧
      ∀ j < k, freeOut p (s 0).kp (s 0).ki (s 0).kd (s 0).setpoint (z 0) (s 0).cumulative (s 0).lastReading j = (s (j + 1)).output := by
    intro k
    induction k with
    | zero => intro _; exact ⟨rfl, fun j hj => by omega⟩
    | succ k ih =>
      intro hk
      obtain ⟨ha, hj⟩ := ih (by omega)
      obtain ⟨h1, h2, -, -⟩ := computed (by rw [(hall k (by omega)).mode, hm]) (h k (by omega)).1
      rw [(hall k (by omega)).lo, (hall k (by omega)).hi] at h1 h2
      obtain ⟨f1, f2⟩ := hfirst k (by omega)
      have hl : |s₀.setpoint - (s k).lastReading| ≤ d := by
        cases k with
        | zero => exact hlast
        | succ k =>
          obtain ⟨-, -, h3, -⟩ := computed (by rw [(hall k (by omega)).mode, hm]) (h k (by omega)).1
          rw [h3]
          exact (hfirst k (by omega)).1
      have o1 : (s (k + 1)).output = (s (k + 1)).cumulative - (s k).kd * (p.read (z k) - (s k).lastReading) := by
        rw [h2]; exact keep (by rw [← h2]; linarith)
      have c1 : (s (k + 1)).cumulative = sum (s k) (p.read (z k)) := by
        rw [h1]
        refine keep ?_
        rw [← h1, show (s (k + 1)).cumulative - v = ((s (k + 1)).output - v) + (s k).kd * (p.read (z k) - (s k).lastReading) by rw [o1]; ring]
        refine (abs_add_le _ _).trans ?_
        have := part f1 hl
        rw [(hall k (by omega)).kd]
        nlinarith [mul_nonneg hkd (by linarith : (0 : ℚ) ≤ K * d - d)]
      have ha' := agrees_next h hm' (by omega) ha c1 o1
      refine ⟨ha', fun j hj' => ?_⟩
      rcases Nat.lt_succ_iff_lt_or_eq.mp hj' with hj' | rfl
      · exact hj j hj'
      · unfold Agrees at ha ha'
        rw [freeOut, freeRead, ha', ha, o1, (hall j (by omega)).kd, hs.kd]
  -- so all are small
  obtain ⟨b1, b2⟩ := free_loop p (s 0).kp (s 0).ki (s 0).kd (s 0).setpoint (z 0) (s 0).cumulative (s 0).lastReading hp
  have b2 := b2 v (by rw [hs.setpoint]; exact hv)
  have d1 := hK (fun k => (s 0).setpoint - freeRead p (s 0).kp (s 0).ki (s 0).kd (s 0).setpoint (z 0) (s 0).cumulative (s 0).lastReading k) d
    (by rw [← b1, hs.kp, hs.ki, hs.kd]) hdpos.le (fun k hk => by
      have := (first k hk.le).1
      unfold Agrees at this
      rw [freeRead, this, hs.setpoint]
      exact (hfirst k hk).1)
  have d2 := hK (fun k => freeOut p (s 0).kp (s 0).ki (s 0).kd (s 0).setpoint (z 0) (s 0).cumulative (s 0).lastReading k - v) d
    (by rw [← b2, hs.kp, hs.ki, hs.kd]) hdpos.le (fun k hk => by
      rw [(first (k + 1) (by omega)).2 k (by omega)]
      exact (hfirst k hk).2)
  -- and the limits are never reached
  have all : ∀ k ≤ n, Agrees p s z k ∧ (0 < k → OffLimits (s k)) := by
    intro k
    induction k with
    | zero => exact fun _ => ⟨rfl, fun h => absurd h (by omega)⟩
    | succ k ih =>
      intro hk
      obtain ⟨ha, -⟩ := ih (by omega)
      obtain ⟨h1, h2, -, -⟩ := computed (by rw [(hall k (by omega)).mode, hm]) (h k (by omega)).1
      rw [(hall k (by omega)).lo, (hall k (by omega)).hi] at h1 h2
      have hx := d1 k
      have hu := d2 k
      have hl : |s₀.setpoint - (s k).lastReading| ≤ K * d := by
        cases k with
        | zero => exact hlast.trans hKd
        | succ k =>
          have := free_last p (s 0).kp (s 0).ki (s 0).kd (s 0).setpoint (z 0) (s 0).cumulative (s 0).lastReading k
          unfold Agrees at ha
          rw [ha] at this
          dsimp only at this
          rw [this, ← hs.setpoint]
          exact d1 k
      have hsum := free_sum p (s 0).kp (s 0).ki (s 0).kd (s 0).setpoint (z 0) (s 0).cumulative (s 0).lastReading k
      have ha0 := ha
      unfold Agrees at ha
      simp only [freeOut] at hu
      simp only [freeRead, ha] at hx hu hsum
      rw [hsum] at hu
      have hsame := same h hm' k (by omega)
      rw [← hsame.ki, ← hsame.kp, ← hsame.kd, ← hsame.setpoint] at hu
      change |sum (s k) (p.read (z k)) - _ - v| ≤ _ at hu
      rw [hs.setpoint] at hx
      have hpart := part hx hl
      have hsv : |sum (s k) (p.read (z k)) - v| ≤ m / 2 := by
        rw [show sum (s k) (p.read (z k)) - v = (sum (s k) (p.read (z k)) - (s k).kd * (p.read (z k) - (s k).lastReading) - v) +
          (s k).kd * (p.read (z k) - (s k).lastReading) by ring]
        refine (abs_add_le _ _).trans ?_
        rw [(hall k (by omega)).kd] at hu ⊢
        nlinarith
      have c1 : (s (k + 1)).cumulative = sum (s k) (p.read (z k)) := by rw [h1]; exact keep' hsv
      have o1 : (s (k + 1)).output = (s (k + 1)).cumulative - (s k).kd * (p.read (z k) - (s k).lastReading) := by
        rw [h2]
        refine keep' ?_
        rw [c1]
        linarith
      refine ⟨agrees_next h hm' (by omega) ha0 c1 o1, fun _ => ?_⟩
      obtain ⟨i1, i2⟩ := near hsv
      obtain ⟨i3, i4⟩ := near (hu.trans small)
      rw [← c1] at i1 i2 i3 i4
      rw [← o1] at i3 i4
      exact ⟨by rw [(hall _ (by omega)).lo]; exact i1, by rw [(hall _ (by omega)).hi]; exact i2, by rw [(hall _ (by omega)).lo]; exact i3, by rw [(hall _ (by omega)).hi]; exact i4⟩
  refine ⟨fun k hk => (all (k + 1) hk).2 (by omega), fun k hk => ?_⟩
  have h1 := hK' _ d (by rw [← hs.kp, ← hs.ki, ← hs.kd]; exact b1) hdpos.le (fun k hk => by
    have := (first k hk.le).1
    unfold Agrees at this
    rw [freeRead, this, hs.setpoint]
    exact (hfirst k hk).1) k
  have h2 := (all k hk).1
  unfold Agrees at h2
  rwa [freeRead, h2, hs.setpoint] at h1

namespace LinearLoop

/-- The part of the distance to the surroundings that is lost in `m` steps. -/
def lossOf (p : Process) (m : ℕ) : ℚ := 1 - (1 - p.loss) ^ m

/-- What an output of 1 adds in `m` steps. -/
def gainOf (p : Process) (m : ℕ) : ℚ := p.gain * ∑ i ∈ Finset.range m, (1 - p.loss) ^ i

theorem steps_eq (p : Process) (m : ℕ) (x u : ℚ) :
    (p.plant m).next x u = (1 - lossOf p m) * x + gainOf p m * u + p.loss * p.surroundings * ∑ i ∈ Finset.range m, (1 - p.loss) ^ i := by
  show (p.next · u)^[m] x = _
  unfold lossOf gainOf
  induction m with
  | zero => simp
  | succ m ih =>
    rw [Function.iterate_succ_apply', ih, Process.next, geom_sum_succ, pow_succ]
    ring

theorem plant_linear (p : Process) (m : ℕ) : (p.plant m).Linear (X - C (1 - lossOf p m)) (C (gainOf p m))
    (p.loss * p.surroundings * ∑ i ∈ Finset.range m, (1 - p.loss) ^ i) := by
  intro z u hz k
  rw [← act_apply (X - C (1 - lossOf p m)) (fun k => (p.plant m).read (z k)), ← act_apply, act_sub, Pi.sub_apply, act_X, act_C, act_C]
  show z (k + 1) - _ * z k = _
  rw [hz, steps_eq]
  ring

theorem late_linear (p : Process) : p.late.Linear (X * (X - C (1 - p.loss))) (C p.gain) (p.loss * p.surroundings) := by
  intro z u hz k
  rw [← act_apply (X * (X - C (1 - p.loss))) (fun k => p.late.read (z k)), ← act_apply, act_mul, act_X, act_sub, Pi.sub_apply, act_X, act_C, act_C]
  show (z (k + 1 + 1)).1 - _ * (z (k + 1)).1 = _
  rw [hz (k + 1), Process.late]
  have h2 : (z (k + 1)).2 = u k := by rw [hz k]; rfl
  dsimp only
  rw [h2, Process.next]
  ring

end LinearLoop

/-- **C171** for a process of first order, such as a heated room, that makes `m` steps per computation: what the gains must satisfy. Without derivative part and
with one step per computation these are the conditions of C142. -/
theorem C171_first_order {p : Process} {m : ℕ} {kp ki kd : ℚ} {pull damping brake : ℚ} (h1 : pull = gainOf p m * ki)
    (h2 : damping = gainOf p m * kp + lossOf p m) (h3 : brake = gainOf p m * kd) (c1 : 0 < pull) (c2 : pull + 2 * damping + 4 * brake < 4) (c3 : brake ^ 2 < 1)
    (c4 : 0 < damping * (1 + brake) + brake * pull) (c5 : damping * (1 + brake) + brake * pull + 2 * brake ^ 2 < 2) :
    (p.plant m).Linear (X - C (1 - lossOf p m)) (C (gainOf p m)) (p.loss * p.surroundings * ∑ i ∈ Finset.range m, (1 - p.loss) ^ i) ∧
    Damped (loopPoly (X - C (1 - lossOf p m)) (C (gainOf p m)) kp ki kd) := by
  refine ⟨plant_linear p m, ?_⟩
  have e : loopPoly (X - C (1 - lossOf p m)) (C (gainOf p m)) kp ki kd =
      X ^ 3 + C (pull + damping + brake - 2) * X ^ 2 + C (1 - damping - 2 * brake) * X + C brake := by
    rw [h1, h2, h3, loopPoly]
    simp only [C_sub, C_add, C_mul, C_1, C_ofNat]
    ring
  rw [e]
  exact damped_cubic (by linarith) (by linarith) c3 (by nlinarith) (by nlinarith)

/-- **C171** for a process of first order on which outputs act one computation late, without derivative part. -/
theorem C171_late {p : Process} {kp ki : ℚ} {pull kick : ℚ} (h1 : pull = p.gain * ki) (h2 : kick = p.gain * kp) (c1 : 0 < pull)
    (c2 : 0 < 4 - 2 * p.loss + pull + 2 * kick) (c3 : kick ^ 2 < 1) (c4 : pull + (1 - p.loss) * (1 - kick) < 1 - kick ^ 2)
    (c5 : -(1 - kick ^ 2) < pull + (1 - p.loss) * (1 - kick)) :
    p.late.Linear (X * (X - C (1 - p.loss))) (C p.gain) (p.loss * p.surroundings) ∧
    Damped (loopPoly (X * (X - C (1 - p.loss))) (C p.gain) kp ki 0) := by
  refine ⟨late_linear p, ?_⟩
  have e : loopPoly (X * (X - C (1 - p.loss))) (C p.gain) kp ki 0 =
      X * (X ^ 3 + C (p.loss - 2) * X ^ 2 + C (1 - p.loss + pull + kick) * X + C (-kick)) := by
    rw [h1, h2, loopPoly]
    simp only [C_sub, C_add, C_mul, C_neg, C_1, C_0, C_ofNat]
    ring
  rw [e]
  intro z hz
  rw [map_mul, mul_eq_zero, aeval_X] at hz
  rcases hz with rfl | hz
  · simp
  · exact damped_cubic (by linarith) (by linarith) (by linarith [neg_sq kick]) (by nlinarith) (by nlinarith) z hz

namespace LinearLoop

/-- The room of C142 with a controller that has a derivative part. -/
def brakedRoom : ℕ → Pid ℚ × ℚ
  | 0 => ({ roomPid with kd := 10 }, 298 / 5)
  | k + 1 =>
    let (s, x) := brakedRoom k
    let s' := { s with input := x }.compute (1000 + 100 * k)
    (s', (room.plant 1).next x s'.output)

end LinearLoop

/-- The gains of this room meet the conditions, a run is as long as its polynomial asks for, and it is off the limits. -/
example : Damped (loopPoly (X - C (1 - lossOf room 1)) (C (gainOf room 1)) 20 3 10) ∧
    Runs (room.plant 1) (fun k => (brakedRoom k).1) (fun k => (brakedRoom k).2) (fun k => 1000 + 100 * k) 3 ∧
    (∀ k < 3, OffLimits (brakedRoom (k + 1)).1) := by
  refine ⟨(C171_first_order (pull := 3 / 100) (damping := 11 / 50) (brake := 1 / 10) ?_ ?_ ?_ ?_ ?_ ?_ ?_ ?_).2, ?_, ?_⟩
  · norm_num [gainOf, room]
  · norm_num [gainOf, lossOf, room]
  · norm_num [gainOf, room]
  · norm_num
  · norm_num
  · norm_num
  · norm_num
  · norm_num
  · intro k hk
    interval_cases k <;> exact ⟨by decide +kernel, rfl⟩
  · intro k hk
    unfold OffLimits
    interval_cases k <;> decide +kernel

/-- One with outputs that act late. -/
example : Damped (loopPoly (X * (X - C (1 - room.loss))) (C room.gain) 20 3 0) :=
  (C171_late (pull := 3 / 100) (kick := 1 / 5) (by norm_num [room]) (by norm_num [room]) (by norm_num) (by norm_num [room]) (by norm_num)
    (by norm_num [room]) (by norm_num [room])).2

/-- And one that can be held at the setpoint of 60 °C by an output of 80. -/
example : (C (gainOf room 1)).eval 1 * 80 = (X - C (1 - lossOf room 1) : ℚ[X]).eval 1 * 60 - room.loss * room.surroundings * ∑ i ∈ Finset.range 1, (1 - room.loss) ^ i := by
  norm_num [gainOf, lossOf, room]

end Spine
