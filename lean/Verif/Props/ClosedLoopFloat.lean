import Verif.Props.PidAccuracy
import Verif.Props.ClosedLoop
/-!
# C147: the closed loop in single precision, with a real sensor

C142 is about exact arithmetic, a perfect sensor and a process without disturbances. Here the controller computes with `float`, the sensor is off, and the
process is disturbed.
-/

namespace Spine
open Pid F32 Fl

namespace ClosedLoop
open PidAccuracy

/-- A controller in single precision and the process it controls: at each of the times the sensor is read, and the process then makes one step with the output
and a disturbance. -/
def runFl (p : Process) (s : Pid Fl) (x : Rat) : List (Int × (Rat → Fl) × Rat) → Res (List Bool × Pid Fl × Rat)
  | [] => .ok ([], s, x)
  | (now, sensor, d) :: es => do
    let (f, s) ← PID.newReading s (sensor x) now
    let (fs, s, x) ← runFl p s (p.next x s.output.val + d) es
    return (f :: fs, s, x)

/-- What is asked of the controller: it works on measurement without derivative part, with finite numbers: readings of at most `X`, gains of at most `K`, limits of
at most `L`. -/
structure Sound (X K L : Rat) (s : Pid Fl) : Prop where
  kp : Good s.kp K
  ki : Good s.ki K
  kd : Good s.kd K
  kd' : s.kd.val = 0
  setpoint : Good s.setpoint X
  lastReading : Good s.lastReading X
  lo : Good s.lo L
  hi : Good s.hi L
  ordered : s.lo.val ≤ s.hi.val
  cumulative : Good s.cumulative L
  output : s.output.fin = true
  mode : s.onMeasurement = true

/-- The part of the last change that is left, and how much of the error stays. -/
def left (p : Process) (s : Pid Rat) : Rat := 1 - damping p s
def stay (p : Process) (s : Pid Rat) : Rat := 2 - pull p s - damping p s

/-- `ρ` is a factor by which errors shrink with each step. -/
structure Shrinks (p : Process) (s : Pid Rat) (ρ : Rat) : Prop where
  gain : 0 < p.gain
  loss : 0 ≤ p.loss
  loss' : p.loss ≤ 1
  pos : 0 < ρ
  lt : ρ < 1
  left : left p s ≤ ρ ^ 2
  stay : |stay p s| * ρ < ρ ^ 2 + ClosedLoop.left p s

/-- A measure of the last two errors. -/
def measure (ρ : Rat) (p : Process) (s : Pid Rat) (e e₀ : Rat) : Rat :=
  (ρ ^ 2 + left p s) * (e ^ 2 + ρ ^ 2 * e₀ ^ 2) - 2 * stay p s * ρ ^ 2 * e * e₀

/-- The measure is at least this times the square of the error. -/
def weight (ρ : Rat) (p : Process) (s : Pid Rat) : Rat := ρ ^ 2 + left p s - |stay p s| * ρ

/-- What one step can add to the error: disturbances of at most `D`, rounding errors of at most `ε` and a sensor that is off by at most `ν`. -/
def push (p : Process) (s : Pid Rat) (D ε ν : Rat) : Rat := 2 * D + 5 * (p.gain * ε) + p.gain * (|s.ki| + 2 * |s.kp|) * ν

/-! ## The algebra -/

def W (ρ q t y₁ y₀ : Rat) : Rat := (ρ ^ 2 + q) * (y₁ ^ 2 + ρ ^ 2 * y₀ ^ 2) - 2 * t * ρ ^ 2 * y₁ * y₀

variable {ρ q t y₁ y₀ w : Rat}

theorem W_low (hρ : 0 < ρ) : (ρ ^ 2 + q - |t| * ρ) * (y₁ ^ 2 + ρ ^ 2 * y₀ ^ 2) ≤ W ρ q t y₁ y₀ := by
  have h1 : 2 * t * ρ ^ 2 * y₁ * y₀ ≤ |t| * ρ * (y₁ ^ 2 + ρ ^ 2 * y₀ ^ 2) := by
    have h2 : 2 * (t * (ρ * (y₁ * (ρ * y₀)))) ≤ 2 * (|t| * (ρ * |y₁ * (ρ * y₀)|)) := by
      refine mul_le_mul_of_nonneg_left ?_ (by norm_num)
      calc t * (ρ * (y₁ * (ρ * y₀))) ≤ |t * (ρ * (y₁ * (ρ * y₀)))| := le_abs_self _
        _ = _ := by rw [abs_mul, abs_mul ρ, abs_of_pos hρ]
    have h3 : 2 * |y₁ * (ρ * y₀)| ≤ y₁ ^ 2 + ρ ^ 2 * y₀ ^ 2 := by
      rw [abs_mul]
      have e1 := sq_abs y₁
      have e0 := sq_abs (ρ * y₀)
      nlinarith [sq_nonneg (|y₁| - |ρ * y₀|)]
    have h4 := mul_le_mul_of_nonneg_left h3 (mul_nonneg (abs_nonneg t) hρ.le)
    linarith
  unfold W
  linarith

theorem W_nonneg (hρ : 0 < ρ) (ht : |t| * ρ < ρ ^ 2 + q) : 0 ≤ W ρ q t y₁ y₀ := by
  refine le_trans ?_ (W_low hρ)
  have : 0 < ρ ^ 2 + q - |t| * ρ := by linarith
  positivity

theorem W_step : W ρ q t (t * y₁ - q * y₀) y₁ = ρ ^ 2 * W ρ q t y₁ y₀ - (ρ ^ 2 - q) * (t * y₁ - (ρ ^ 2 + q) * y₀) ^ 2 := by
  unfold W; ring

theorem W_push (hρ : 0 < ρ) (hρ' : ρ < 1) (ht : |t| * ρ < ρ ^ 2 + q) : W ρ q t (y₁ + w) y₀ ≤ W ρ q t y₁ y₀ / ρ + (ρ ^ 2 + q) * w ^ 2 / (1 - ρ) := by
  have h0 := W_nonneg (y₁ := (1 - ρ) * y₁ - ρ * w) (y₀ := (1 - ρ) * y₀) hρ ht
  have h1 : 0 < 1 - ρ := by linarith
  rw [div_add_div _ _ hρ.ne' h1.ne', le_div_iff₀ (mul_pos hρ h1)]
  unfold W at *
  linarith

theorem W_next (hρ : 0 < ρ) (hρ' : ρ < 1) (hq : q ≤ ρ ^ 2) (ht : |t| * ρ < ρ ^ 2 + q) :
    W ρ q t (t * y₁ - q * y₀ + w) y₁ ≤ ρ * W ρ q t y₁ y₀ + (ρ ^ 2 + q) * w ^ 2 / (1 - ρ) := by
  refine (W_push hρ hρ' ht).trans ?_
  have h1 : W ρ q t (t * y₁ - q * y₀) y₁ / ρ ≤ ρ * W ρ q t y₁ y₀ := by
    rw [div_le_iff₀ hρ, W_step]
    have := mul_nonneg (sub_nonneg.mpr hq) (sq_nonneg (t * y₁ - (ρ ^ 2 + q) * y₀))
    linarith
  linarith

/-- A bound on the measure bounds the sum of the errors. -/
theorem W_sum {E R : Rat} (hρ : 0 < ρ) (ht : |t| * ρ < ρ ^ 2 + q) (hR : 0 ≤ R) (hE : W ρ q t y₁ y₀ ≤ E)
    (hER : (1 + ρ ^ 2) * E ≤ (ρ ^ 2 + q - |t| * ρ) * ρ ^ 2 * R ^ 2) : |y₁| + |y₀| ≤ R := by
  have h1 := (W_low (y₁ := y₁) (y₀ := y₀) (q := q) (t := t) hρ).trans hE
  have hl : 0 < ρ ^ 2 + q - |t| * ρ := by linarith
  generalize ρ ^ 2 + q - |t| * ρ = l at *
  have h2 : (1 + ρ ^ 2) * (y₁ ^ 2 + ρ ^ 2 * y₀ ^ 2) ≤ ρ ^ 2 * R ^ 2 := by
    have h3 := mul_le_mul_of_nonneg_left h1 (by positivity : 0 ≤ 1 + ρ ^ 2)
    refine le_of_mul_le_mul_left ?_ hl
    linarith
  have h3 : ρ ^ 2 * (|y₁| + |y₀|) ^ 2 ≤ (1 + ρ ^ 2) * (y₁ ^ 2 + ρ ^ 2 * y₀ ^ 2) := by
    have e1 := sq_abs y₁
    have e0 := sq_abs y₀
    rw [← e1, ← e0]
    nlinarith [sq_nonneg (|y₁| - ρ ^ 2 * |y₀|)]
  have h4 : (|y₁| + |y₀|) ^ 2 ≤ R ^ 2 := le_of_mul_le_mul_left (h3.trans h2) (by positivity)
  exact (abs_le_of_sq_le_sq' h4 hR).2

/-! ## One step -/

/-- What the computation would give without rounding and limits. -/
def unlimited (s : Pid Rat) (v : Rat) : Rat := s.cumulative + s.ki * (s.setpoint - v) - s.kp * (v - s.lastReading)

theorem float_step {X K L : Rat} {s s' : Pid Fl} {v : Fl} {now : Int} (hs : Sound X K L s) (hv : Good v X) (hX : X ≤ pow2 120) (hG : 2 * K * X ≤ pow2 120)
    (hL : L ≤ pow2 120) (h : PID.newReading s v now = .ok (true, s')) :
    Sound X K L s' ∧ (s'.kp = s.kp ∧ s'.ki = s.ki ∧ s'.setpoint = s.setpoint ∧ s'.lo = s.lo ∧ s'.hi = s.hi ∧ s'.lastReading = v) ∧
      |s'.cumulative.val - clamp s.lo.val s.hi.val (unlimited (exact s) v.val)| ≤ stepError X K L ∧
      |s'.output.val - clamp s.lo.val s.hi.val (unlimited (exact s) v.val)| ≤ 2 * stepError X K L := by
  have hn : Near X K L 0 0 { s with input := v } (exact { s with input := v }) :=
    ⟨hs.kp, hs.ki, hs.kd, hs.setpoint, hv, hs.lastReading, hs.lo, hs.hi, hs.ordered, hs.cumulative, ⟨rfl, rfl, rfl, rfl, rfl, rfl, rfl, rfl, rfl, rfl, rfl⟩,
      by simp [exact], hs.output, by simp [exact]⟩
  have h1 := step_close hn hX hG hL now
  have e := newReading_true h
  rw [← e] at h1
  have hset : s'.kp = s.kp ∧ s'.ki = s.ki ∧ s'.kd = s.kd ∧ s'.setpoint = s.setpoint ∧ s'.lo = s.lo ∧ s'.hi = s.hi ∧ s'.lastReading = v ∧ s'.onMeasurement = s.onMeasurement := by
    rw [e]; exact ⟨rfl, rfl, rfl, rfl, rfl, rfl, rfl, rfl⟩
  obtain ⟨e1, e2, e3, e4, e5, e6, e7, e8⟩ := hset
  have hc : ((exact { s with input := v }).compute now).cumulative = clamp s.lo.val s.hi.val (unlimited (exact s) v.val) := by
    rw [compute_rat]
    simp only [exact, hs.mode, cond_true, unlimited]
  have ho : ((exact { s with input := v }).compute now).output = clamp s.lo.val s.hi.val (unlimited (exact s) v.val) := by
    rw [compute_rat]
    simp only [exact, hs.mode, cond_true, cond_false, hs.kd', zero_mul, sub_zero, zero_add]
    obtain ⟨b1, b2⟩ := clamp_inside (x := unlimited (exact s) v.val) hs.ordered
    exact clamp_id b1 b2
  refine ⟨⟨h1.kp, h1.ki, h1.kd, by rw [e3]; exact hs.kd', h1.setpoint, h1.lastReading, h1.lo, h1.hi, h1.ordered, h1.cumulative, h1.outFin, by rw [e8]; exact hs.mode⟩,
    ⟨e1, e2, e4, e5, e6, e7⟩, ?_, ?_⟩
  · have := h1.integral; rwa [hc, zero_add] at this
  · have := h1.out; rwa [ho, zero_add] at this

/-- The reading follows, up to what the sensor, the rounding and the disturbances change. -/
structure FollowsNear (p : Process) (s : Pid Fl) (D ε ν x₀ x : Rat) : Prop where
  reading : |s.lastReading.val - x₀| ≤ ν
  quantity : |x - p.next x₀ s.cumulative.val| ≤ D + 3 * (p.gain * ε)

theorem follows_float {p : Process} {X K L D ν d x : Rat} {s s' : Pid Fl} {v : Fl} {now : Int} (hg : 0 ≤ p.gain) (hs : Sound X K L s) (hv : Good v X)
    (hX : X ≤ pow2 120) (hG : 2 * K * X ≤ pow2 120) (hL : L ≤ pow2 120) (hd : |d| ≤ D) (hν : |v.val - x| ≤ ν) (h : PID.newReading s v now = .ok (true, s')) :
    FollowsNear p s' D (stepError X K L) ν x (p.next x s'.output.val + d) := by
  obtain ⟨-, ⟨-, -, -, -, -, e⟩, h1, h2⟩ := float_step hs hv hX hG hL h
  refine ⟨by rw [e]; exact hν, ?_⟩
  generalize clamp s.lo.val s.hi.val _ = c at *
  have h3 : |s'.output.val - s'.cumulative.val| ≤ 3 * stepError X K L := by
    rw [abs_le] at *
    constructor <;> linarith
  have e1 : p.next x s'.output.val + d - p.next x s'.cumulative.val = p.gain * (s'.output.val - s'.cumulative.val) + d := by unfold Process.next; ring
  rw [e1]
  have h4 : |p.gain * (s'.output.val - s'.cumulative.val)| ≤ 3 * (p.gain * stepError X K L) := by
    rw [abs_mul, abs_of_nonneg hg]
    have := mul_le_mul_of_nonneg_left h3 hg
    linarith
  have := abs_add_le (p.gain * (s'.output.val - s'.cumulative.val)) d
  linarith

theorem measure_W (ρ : Rat) (p : Process) (s : Pid Rat) (e e₀ : Rat) : measure ρ p s e e₀ = W ρ (left p s) (stay p s) e e₀ := rfl

/-- The next error is that of the exact loop, up to `push`. -/
theorem loop_step {p : Process} {X K L D ν R E ρ d x x₀ : Rat} {s s' : Pid Fl} {v : Fl} {now : Int} (hs : Sound X K L s) (hr : Shrinks p (exact s) ρ) (hv : Good v X)
    (hX : X ≤ pow2 120) (hG : 2 * K * X ≤ pow2 120) (hL : L ≤ pow2 120) (hd : |d| ≤ D) (hν : |v.val - x| ≤ ν)
    (hf : FollowsNear p s D (stepError X K L) ν x₀ x) (hR : 0 ≤ R) (hM : Margin p (exact s) (R + push p (exact s) D (stepError X K L) ν))
    (hE : measure ρ p (exact s) (s.setpoint.val - x) (s.setpoint.val - x₀) ≤ E) (hER : (1 + ρ ^ 2) * E ≤ weight ρ p (exact s) * ρ ^ 2 * R ^ 2)
    (h : PID.newReading s v now = .ok (true, s')) :
    ∃ w, |w| ≤ push p (exact s) D (stepError X K L) ν ∧
      s.setpoint.val - (p.next x s'.output.val + d) = stay p (exact s) * (s.setpoint.val - x) - left p (exact s) * (s.setpoint.val - x₀) + w := by
  obtain ⟨-, -, -, ho⟩ := float_step hs hv hX hG hL h
  have hε : 0 ≤ stepError X K L := by
    have := (abs_nonneg _).trans ho
    linarith
  have D0 : 0 ≤ D := (abs_nonneg _).trans hd
  obtain ⟨hf1, hf2⟩ := hf
  -- the errors of the sensor
  obtain ⟨n₁, hn₁⟩ : ∃ n, n = v.val - x := ⟨_, rfl⟩
  obtain ⟨n₀, hn₀⟩ : ∃ n, n = s.lastReading.val - x₀ := ⟨_, rfl⟩
  obtain ⟨η, hη⟩ : ∃ η, η = x - p.next x₀ s.cumulative.val := ⟨_, rfl⟩
  rw [← hn₁] at hν
  rw [← hn₀] at hf1
  rw [← hη] at hf2
  have hnoise : |p.gain * (s.ki.val * n₁ + s.kp.val * (n₁ - n₀))| ≤ p.gain * (|s.ki.val| + 2 * |s.kp.val|) * ν := by
    rw [abs_mul, abs_of_pos hr.gain, mul_assoc]
    refine mul_le_mul_of_nonneg_left ?_ hr.gain.le
    have a1 := abs_add_le (s.ki.val * n₁) (s.kp.val * (n₁ - n₀))
    have a2 : |s.ki.val * n₁| ≤ |s.ki.val| * ν := by rw [abs_mul]; exact mul_le_mul_of_nonneg_left hν (abs_nonneg _)
    have a3 : |s.kp.val * (n₁ - n₀)| ≤ |s.kp.val| * (2 * ν) := by
      rw [abs_mul]
      refine mul_le_mul_of_nonneg_left ?_ (abs_nonneg _)
      have := abs_sub n₁ n₀
      linarith
    linarith
  -- the step without limits
  have hu : s.setpoint.val - p.next x (unlimited (exact s) v.val) = stay p (exact s) * (s.setpoint.val - x) - left p (exact s) * (s.setpoint.val - x₀) +
      (η + p.gain * (s.ki.val * n₁ + s.kp.val * (n₁ - n₀))) := by
    have ev : v.val = n₁ + x := by rw [hn₁]; ring
    have el : s.lastReading.val = n₀ + x₀ := by rw [hn₀]; ring
    rw [ev]
    unfold unlimited stay left pull damping Process.next
    simp only [exact]
    rw [el]
    unfold Process.next at hη
    linear_combination -hη
  obtain ⟨y, hy⟩ : ∃ y, y = stay p (exact s) * (s.setpoint.val - x) - left p (exact s) * (s.setpoint.val - x₀) := ⟨_, rfl⟩
  rw [← hy] at hu ⊢
  -- it stays within the limits
  have hsum : |y| + |s.setpoint.val - x| ≤ R := by
    have h1 : W ρ (left p (exact s)) (stay p (exact s)) y (s.setpoint.val - x) ≤ E := by
      rw [hy, W_step]
      rw [measure_W] at hE
      have a1 := mul_nonneg (sub_nonneg.mpr hr.left) (sq_nonneg (stay p (exact s) * (s.setpoint.val - x) - (ρ ^ 2 + left p (exact s)) * (s.setpoint.val - x₀)))
      have a2 := W_nonneg (y₁ := s.setpoint.val - x) (y₀ := s.setpoint.val - x₀) hr.pos hr.stay
      have a3 : ρ ^ 2 ≤ 1 := by nlinarith [hr.pos, hr.lt]
      have a4 := mul_le_mul_of_nonneg_right a3 a2
      linarith
    exact W_sum hr.pos hr.stay hR h1 hER
  have hpush : |η + p.gain * (s.ki.val * n₁ + s.kp.val * (n₁ - n₀))| ≤ D + 3 * (p.gain * stepError X K L) + p.gain * (|s.ki.val| + 2 * |s.kp.val|) * ν := by
    have := abs_add_le η (p.gain * (s.ki.val * n₁ + s.kp.val * (n₁ - n₀)))
    linarith
  generalize η + p.gain * (s.ki.val * n₁ + s.kp.val * (n₁ - n₀)) = w at *
  have hgu : p.gain * unlimited (exact s) v.val = (1 - p.loss) * (s.setpoint.val - x) - (y + w) + p.loss * (s.setpoint.val - p.surroundings) := by
    rw [← hu, Process.next]; ring
  have hP : push p (exact s) D (stepError X K L) ν = 2 * D + 5 * (p.gain * stepError X K L) + p.gain * (|s.ki.val| + 2 * |s.kp.val|) * ν := rfl
  have hgε : 0 ≤ p.gain * stepError X K L := mul_nonneg hr.gain.le hε
  have hb : |(1 - p.loss) * (s.setpoint.val - x) - (y + w)| ≤ R + push p (exact s) D (stepError X K L) ν := by
    have h1 : |(1 - p.loss) * (s.setpoint.val - x)| ≤ |s.setpoint.val - x| := by
      rw [abs_mul, abs_of_nonneg (by linarith [hr.loss'] : (0 : Rat) ≤ 1 - p.loss)]
      nlinarith [abs_nonneg (s.setpoint.val - x), hr.loss]
    have h2 := abs_sub ((1 - p.loss) * (s.setpoint.val - x)) (y + w)
    have h3 := abs_add_le y w
    rw [hP]
    linarith
  rw [abs_le] at hb
  have m1 : p.gain * s.lo.val + (R + push p (exact s) D (stepError X K L) ν) ≤ p.loss * (s.setpoint.val - p.surroundings) := hM.1
  have m2 : p.loss * (s.setpoint.val - p.surroundings) + (R + push p (exact s) D (stepError X K L) ν) ≤ p.gain * s.hi.val := hM.2
  have c1 : s.lo.val ≤ unlimited (exact s) v.val := by
    refine le_of_mul_le_mul_left ?_ hr.gain
    rw [hgu]; linarith [hb.1]
  have c2 : unlimited (exact s) v.val ≤ s.hi.val := by
    refine le_of_mul_le_mul_left ?_ hr.gain
    rw [hgu]; linarith [hb.2]
  rw [clamp_id c1 c2] at ho
  refine ⟨w - p.gain * (s'.output.val - unlimited (exact s) v.val) - d, ?_, ?_⟩
  · have h1 : |p.gain * (s'.output.val - unlimited (exact s) v.val)| ≤ 2 * (p.gain * stepError X K L) := by
      rw [abs_mul, abs_of_pos hr.gain]
      have := mul_le_mul_of_nonneg_left ho hr.gain.le
      linarith
    have h2 := abs_sub w (p.gain * (s'.output.val - unlimited (exact s) v.val))
    have h3 := abs_sub (w - p.gain * (s'.output.val - unlimited (exact s) v.val)) d
    rw [hP]
    linarith
  · have : p.next x s'.output.val = p.next x (unlimited (exact s) v.val) + p.gain * (s'.output.val - unlimited (exact s) v.val) := by unfold Process.next; ring
    rw [this]
    linear_combination hu

theorem runFl_cons {p : Process} {s s' : Pid Fl} {x x' : Rat} {now : Int} {sensor : Rat → Fl} {d : Rat} {es : List (Int × (Rat → Fl) × Rat)} {fs : List Bool}
    (h : runFl p s x ((now, sensor, d) :: es) = .ok (fs, s', x')) (hall : ∀ f ∈ fs, f = true) :
    ∃ s₁ fs', PID.newReading s (sensor x) now = .ok (true, s₁) ∧ runFl p s₁ (p.next x s₁.output.val + d) es = .ok (fs', s', x') ∧ ∀ f ∈ fs', f = true := by
  rw [runFl] at h
  obtain ⟨⟨f, s₁⟩, h1, h⟩ := res_bind h
  obtain ⟨⟨fs', s₂, x₂⟩, h2, h⟩ := res_bind h
  cases h
  obtain rfl := hall f (by simp)
  exact ⟨s₁, fs', h1, h2, fun f hf => hall f (by simp [hf])⟩

end ClosedLoop

open ClosedLoop PidAccuracy

/-- **C147**, what holds: let errors shrink by `ρ` with each step in the exact loop. In single precision, with a sensor that is off by at most `ν` and disturbances of
at most `D`, the square of the error after `n` computations is at most what the exact loop makes of the error at first, `ρ ^ n` times the measure, plus a
constant, `(push / (1 - ρ)) ^ 2` up to a factor, however long the loop runs. Missing: that the error goes to zero. -/
theorem C147_band_partial {p : Process} {X K L D ν R E ρ : Rat} (hX : X ≤ pow2 120) (hG : 2 * K * X ≤ pow2 120) (hL : L ≤ pow2 120) (hR : 0 ≤ R) :
    ∀ {es : List (Int × (Rat → Fl) × Rat)} {s s' : Pid Fl} {x x₀ x' : Rat} {fs : List Bool},
    Sound X K L s → Shrinks p (exact s) ρ →
    (∀ e ∈ es, |e.2.2| ≤ D ∧ ∀ x, |s.setpoint.val - x| ≤ R → (e.2.1 x).fin = true ∧ (e.2.1 x).Ok ∧ |(e.2.1 x).val - x| ≤ ν) → |s.setpoint.val| + R + ν ≤ X →
    FollowsNear p s D (stepError X K L) ν x₀ x → Margin p (exact s) (R + push p (exact s) D (stepError X K L) ν) →
    measure ρ p (exact s) (s.setpoint.val - x) (s.setpoint.val - x₀) ≤ E → (1 + ρ ^ 2) * E ≤ weight ρ p (exact s) * ρ ^ 2 * R ^ 2 →
    (ρ ^ 2 + left p (exact s)) * push p (exact s) D (stepError X K L) ν ^ 2 ≤ (1 - ρ) ^ 2 * E →
    runFl p s x es = .ok (fs, s', x') → (∀ f ∈ fs, f = true) →
    weight ρ p (exact s) * (s.setpoint.val - x') ^ 2 ≤ ρ ^ es.length * measure ρ p (exact s) (s.setpoint.val - x) (s.setpoint.val - x₀) +
      (1 - ρ ^ es.length) * ((ρ ^ 2 + left p (exact s)) * (push p (exact s) D (stepError X K L) ν / (1 - ρ)) ^ 2) := by
  intro es
  induction es with
  | nil =>
    intro s s' x x₀ x' fs hs hr _ _ hf hM hE hER hpE h hall
    cases h
    have h1 := W_low (q := left p (exact s)) (t := stay p (exact s)) (y₁ := s.setpoint.val - x) (y₀ := s.setpoint.val - x₀) hr.pos
    have hl : 0 < weight ρ p (exact s) := by have := hr.stay; unfold weight; linarith
    have h2 : 0 ≤ weight ρ p (exact s) * (ρ ^ 2 * (s.setpoint.val - x₀) ^ 2) := by positivity
    rw [measure_W]
    simp only [List.length_nil, pow_zero, one_mul, sub_self, zero_mul, add_zero]
    unfold weight at h2 ⊢
    linarith
  | cons e es ih =>
    intro s s' x x₀ x' fs hs hr hes hX' hf hM hE hER hpE h hall
    obtain ⟨now, sensor, d⟩ := e
    obtain ⟨s₁, fs', h1, h, hall⟩ := runFl_cons h hall
    obtain ⟨hd, hsen⟩ := hes (now, sensor, d) (by simp)
    simp only at hd hsen
    have hA : 0 ≤ ρ ^ 2 + left p (exact s) := by
      have := hr.stay
      have := mul_nonneg (abs_nonneg (stay p (exact s))) hr.pos.le
      linarith
    have hx : |s.setpoint.val - x| ≤ R := by
      have := W_sum hr.pos hr.stay hR hE hER
      have := abs_nonneg (s.setpoint.val - x₀)
      linarith
    obtain ⟨v1, v2, v3⟩ := hsen x hx
    have hv : Good (sensor x) X := by
      refine ⟨v1, v2, ?_⟩
      rw [abs_le] at *
      have := neg_abs_le s.setpoint.val
      have := le_abs_self s.setpoint.val
      constructor <;> linarith
    obtain ⟨w, hw, hnext⟩ := loop_step hs hr hv hX hG hL hd v3 hf hR hM hE hER h1
    obtain ⟨hs₁, ⟨e1, e2, e3, e4, e5, e6⟩, -, -⟩ := float_step hs hv hX hG hL h1
    have hf₁ := follows_float hr.gain.le hs hv hX hG hL hd v3 h1
    have q1 : left p (exact s₁) = left p (exact s) := by simp only [left, damping, exact, e1]
    have q2 : stay p (exact s₁) = stay p (exact s) := by simp only [stay, pull, damping, exact, e1, e2]
    have q3 : ∀ ε, push p (exact s₁) D ε ν = push p (exact s) D ε ν := by intro ε; simp only [push, exact, e1, e2]
    have q4 : weight ρ p (exact s₁) = weight ρ p (exact s) := by rw [weight, q1, q2]; rfl
    have q5 : ∀ y y₀, measure ρ p (exact s₁) y y₀ = measure ρ p (exact s) y y₀ := by intro y y₀; rw [measure_W, q1, q2]; rfl
    have hr₁ : Shrinks p (exact s₁) ρ := ⟨hr.gain, hr.loss, hr.loss', hr.pos, hr.lt, by rw [q1]; exact hr.left, by rw [q2, q1]; exact hr.stay⟩
    have hρ1 : 0 < 1 - ρ := by linarith [hr.lt]
    have hstep : measure ρ p (exact s) (s.setpoint.val - (p.next x s₁.output.val + d)) (s.setpoint.val - x) ≤
        ρ * measure ρ p (exact s) (s.setpoint.val - x) (s.setpoint.val - x₀) + (ρ ^ 2 + left p (exact s)) * push p (exact s) D (stepError X K L) ν ^ 2 / (1 - ρ) := by
      rw [hnext, measure_W, measure_W]
      refine (W_next hr.pos hr.lt hr.left hr.stay).trans ?_
      have a1 : w ^ 2 ≤ push p (exact s) D (stepError X K L) ν ^ 2 := sq_le_sq' (by linarith [neg_le_of_abs_le hw]) (le_of_abs_le hw)
      have a2 := div_le_div_of_nonneg_right (mul_le_mul_of_nonneg_left a1 hA) hρ1.le
      linarith
    have hstepE : measure ρ p (exact s) (s.setpoint.val - (p.next x s₁.output.val + d)) (s.setpoint.val - x) ≤ E := by
      refine hstep.trans ?_
      have a1 : (ρ ^ 2 + left p (exact s)) * push p (exact s) D (stepError X K L) ν ^ 2 / (1 - ρ) ≤ (1 - ρ) * E := by
        rw [div_le_iff₀ hρ1]; linarith
      have a2 := mul_le_mul_of_nonneg_left hE hr.pos.le
      linarith
    have := ih hs₁ hr₁ (fun e he => by rw [e3]; exact hes e (by simp [he])) (by rw [e3]; exact hX') hf₁
      (by rw [q3]; simp only [Margin, exact, e3, e4, e5]; exact hM) (by rw [q5, e3]; exact hstepE) (by rw [q4]; exact hER) (by rw [q1, q3]; exact hpE) h hall
    rw [q1, q3, q4, q5, e3] at this
    refine this.trans ?_
    have a1 := mul_le_mul_of_nonneg_left hstep (pow_nonneg hr.pos.le es.length)
    rw [mul_add] at a1
    have a2 : (1 - ρ ^ es.length) * ((ρ ^ 2 + left p (exact s)) * (push p (exact s) D (stepError X K L) ν / (1 - ρ)) ^ 2) +
        ρ ^ es.length * ((ρ ^ 2 + left p (exact s)) * push p (exact s) D (stepError X K L) ν ^ 2 / (1 - ρ)) =
        (1 - ρ ^ (es.length + 1)) * ((ρ ^ 2 + left p (exact s)) * (push p (exact s) D (stepError X K L) ν / (1 - ρ)) ^ 2) := by
      field_simp
      ring
    rw [List.length_cons, ← a2, pow_succ ρ es.length]
    linarith

/-- From any state, the first computation leads to a state in which the reading follows, up to the errors. -/
theorem C147_first {p : Process} {X K L D ν d x : Rat} {s s' : Pid Fl} {v : Fl} {now : Int} (hg : 0 ≤ p.gain) (hs : Sound X K L s) (hv : Good v X)
    (hX : X ≤ pow2 120) (hG : 2 * K * X ≤ pow2 120) (hL : L ≤ pow2 120) (hd : |d| ≤ D) (hν : |v.val - x| ≤ ν) (h : PID.newReading s v now = .ok (true, s')) :
    FollowsNear p s' D (stepError X K L) ν x (p.next x s'.output.val + d) ∧ Sound X K L s' :=
  ⟨follows_float hg hs hv hX hG hL hd hν h, (float_step hs hv hX hG hL h).1⟩

/-- There is such a factor for all gains for which the loop does not swing up (C142). -/
theorem C147_factor {p : Process} {s : Pid Rat} (hs : Stable p s) : ∃ ρ, Shrinks p s ρ := by
  have h1 := hs.damping
  have h2 := hs.pull
  have h3 := hs.reserve
  obtain ⟨κ, hκ⟩ : ∃ κ, κ = min (pull p s) (reserve p s) := ⟨_, rfl⟩
  have k0 : 0 < κ := hκ ▸ lt_min h2 h3
  have k1 : κ ≤ pull p s := hκ ▸ min_le_left _ _
  have k2 : κ ≤ reserve p s := hκ ▸ min_le_right _ _
  have ht : |stay p s| ≤ 2 - damping p s - κ := by
    unfold reserve at k2
    unfold stay
    rw [abs_le]
    constructor <;> linarith
  obtain ⟨σ, hσ⟩ : ∃ σ, σ = min (κ / 4) (min (damping p s / 2) (1 / 2)) := ⟨_, rfl⟩
  have s0 : 0 < σ := by rw [hσ]; refine lt_min (by linarith) (lt_min (by linarith) (by norm_num))
  have s1 : σ ≤ κ / 4 := hσ ▸ min_le_left _ _
  have s2 : σ ≤ damping p s / 2 := hσ ▸ (min_le_right _ _).trans (min_le_left _ _)
  have s3 : σ ≤ 1 / 2 := hσ ▸ (min_le_right _ _).trans (min_le_right _ _)
  refine ⟨1 - σ, hs.gain, hs.loss, hs.loss', by linarith, by linarith, ?_, ?_⟩
  · unfold ClosedLoop.left
    nlinarith [sq_nonneg σ]
  · unfold ClosedLoop.left
    have := mul_nonneg (abs_nonneg (stay p s)) s0.le
    nlinarith [sq_nonneg σ]

/-- The controller of `roomPid` in single precision, when the room is at 59.8 °C. -/
def roomFl : Pid Fl :=
  { kp := Fl.ofRat 20, ki := Fl.ofRat 3, kd := Fl.ofRat 0, reverse := false, input := Fl.ofRat (299 / 5), output := Fl.ofRat (398 / 5), setpoint := Fl.ofRat 60,
    lastTime := 900, cumulative := Fl.ofRat (398 / 5), lastReading := Fl.ofRat (299 / 5), sampling := 100, lo := Fl.ofRat 0, hi := Fl.ofRat 255, onMeasurement := true }

/-- The conditions of **C147** are met by the room with a sensor and disturbances of up to a thousandth of a degree, with `ρ` = 0.9; the sensors here round to a `float`, and one is
half a thousandth too low. -/
example : Sound 64 20 256 roomFl ∧ Shrinks room (exact roomFl) (9 / 10) ∧
    (∀ x, |roomFl.setpoint.val - x| ≤ 3 / 5 → ∀ c ∈ [0, (1 : Rat) / 2000], (Fl.ofRat (x - c)).fin = true ∧ (Fl.ofRat (x - c)).Ok ∧ |(Fl.ofRat (x - c)).val - x| ≤ 1 / 1000) ∧
    |roomFl.setpoint.val| + 3 / 5 + 1 / 1000 ≤ 64 ∧
    FollowsNear room roomFl (1 / 1000) (stepError 64 20 256) (1 / 1000) (299 / 5) (299 / 5) ∧
    Margin room (exact roomFl) (3 / 5 + push room (exact roomFl) (1 / 1000) (stepError 64 20 256) (1 / 1000)) ∧
    measure (9 / 10) room (exact roomFl) (roomFl.setpoint.val - 299 / 5) (roomFl.setpoint.val - 299 / 5) ≤ 1 / 500 ∧
    (1 + (9 / 10) ^ 2) * (1 / 500) ≤ weight (9 / 10) room (exact roomFl) * (9 / 10) ^ 2 * (3 / 5) ^ 2 ∧
    ((9 / 10) ^ 2 + left room (exact roomFl)) * push room (exact roomFl) (1 / 1000) (stepError 64 20 256) (1 / 1000) ^ 2 ≤ (1 - 9 / 10) ^ 2 * (1 / 500) ∧
    ((runFl room roomFl (299 / 5) [(1000, Fl.ofRat, 0), (1100, fun x => Fl.ofRat (x - 1 / 2000), 1 / 1000), (1200, Fl.ofRat, -1 / 1000)]).map fun r => r.1) = .ok [true, true, true] := by
  have hp : pow2 (-148) ≤ 1 / 2 ^ 20 := by
    have h1 := pow2_lt (a := -148) (b := -20) (by norm_num)
    have h2 : pow2 (-20) = 1 / 2 ^ 20 := by decide +kernel
    linarith
  have hp0 := pow2_pos (-148)
  have hε : stepError 64 20 256 ≤ 13 / 10000 := by unfold stepError; norm_num at hp ⊢; linarith
  have hε0 : 0 ≤ stepError 64 20 256 := by unfold stepError; norm_num; linarith
  have g : ∀ (q B : Rat), (Fl.ofRat q).fin = true → (Fl.ofRat q).val ≤ B → -B ≤ (Fl.ofRat q).val → Good (Fl.ofRat q) B :=
    fun q B h1 h2 h3 => ⟨h1, ofRat_ok _, abs_le.mpr ⟨h3, h2⟩⟩
  have v1 : (Fl.ofRat 20).val = 20 := by decide +kernel
  have v2 : (Fl.ofRat 3).val = 3 := by decide +kernel
  have v3 : (Fl.ofRat 60).val = 60 := by decide +kernel
  have v4 : (Fl.ofRat 255).val = 255 := by decide +kernel
  have v5 : (Fl.ofRat 0).val = 0 := by decide +kernel
  have el : left room (exact roomFl) = 39 / 50 := by simp only [left, damping, exact, room, roomFl, v1]; norm_num
  have es : stay room (exact roomFl) = 7 / 4 := by simp only [stay, pull, damping, exact, room, roomFl, v1, v2]; norm_num
  have ep : push room (exact roomFl) (1 / 1000) (stepError 64 20 256) (1 / 1000) = 243 / 100000 + 1 / 20 * stepError 64 20 256 := by
    simp only [push, exact, room, roomFl, v1, v2]; norm_num; ring
  have hS : Sound 64 20 256 roomFl :=
    ⟨g (20) 20 (by decide +kernel) (by decide +kernel) (by decide +kernel), g (3) 20 (by decide +kernel) (by decide +kernel) (by decide +kernel),
      g (0) 20 (by decide +kernel) (by decide +kernel) (by decide +kernel), v5, g (60) 64 (by decide +kernel) (by decide +kernel) (by decide +kernel),
      g (299 / 5) 64 (by decide +kernel) (by decide +kernel) (by decide +kernel), g (0) 256 (by decide +kernel) (by decide +kernel) (by decide +kernel),
      g (255) 256 (by decide +kernel) (by decide +kernel) (by decide +kernel), by decide +kernel, g (398 / 5) 256 (by decide +kernel) (by decide +kernel) (by decide +kernel),
      by decide +kernel, rfl⟩
  refine ⟨hS, ⟨by norm_num [room], by norm_num [room], by norm_num [room], by norm_num, by norm_num, by rw [el]; norm_num, by rw [el, es]; norm_num⟩, ?_, ?_, ⟨?_, ?_⟩, ?_, ?_, ?_, ?_, by decide +kernel⟩
  · intro x hx c hc
    have hc' : 0 ≤ c ∧ c ≤ 1 / 2000 := by
      simp only [List.mem_cons, List.not_mem_nil, or_false] at hc
      rcases hc with rfl | rfl <;> norm_num
    change |(Fl.ofRat 60).val - x| ≤ 3 / 5 at hx
    rw [v3, abs_le] at hx
    have hsz : |x - c| ≤ 64 := by rw [abs_le]; constructor <;> linarith [hc'.1, hc'.2]
    have h64 : pow2 6 = 64 := by decide +kernel
    have hlt := (rnd_bound (k := 6) (by norm_num) (h64 ▸ hsz)).trans_lt (pow2_lt (show (6 : Int) < 128 by norm_num))
    obtain ⟨f1, f2⟩ := ofRat_val hlt
    refine ⟨f1, ofRat_ok _, ?_⟩
    have := rnd_err_all (x - c)
    have h150 : pow2 (-150) < pow2 (-148) := pow2_lt (by norm_num)
    rw [f2]
    have h24 : |x - c| / 2 ^ 24 ≤ 64 / 2 ^ 24 := div_le_div_of_nonneg_right hsz (by norm_num)
    rw [abs_le] at this ⊢
    norm_num at h24 hp this ⊢
    constructor <;> linarith [hc'.1, hc'.2]
  · change |(Fl.ofRat 60).val| + 3 / 5 + 1 / 1000 ≤ 64
    rw [v3]; norm_num
  · decide +kernel
  · have h1 : -(1 / 1000) ≤ 299 / 5 - room.next (299 / 5) (Fl.ofRat (398 / 5)).val ∧ 299 / 5 - room.next (299 / 5) (Fl.ofRat (398 / 5)).val ≤ 1 / 1000 := by decide +kernel
    have h2 := abs_le.mpr h1
    refine h2.trans ?_
    simp only [room]
    linarith
  · simp only [Margin]
    rw [ep]
    simp only [exact, room, roomFl, v3, v4, v5]
    constructor <;> norm_num <;> linarith
  · change ClosedLoop.measure _ _ _ ((Fl.ofRat 60).val - 299 / 5) ((Fl.ofRat 60).val - 299 / 5) ≤ _
    rw [ClosedLoop.measure, el, es, v3]; norm_num
  · rw [weight, el, es]; norm_num
  · rw [el, ep]
    have h1 : (243 / 100000 + 1 / 20 * stepError 64 20 256) ≤ 25 / 10000 := by linarith
    have h2 : (243 / 100000 + 1 / 20 * stepError 64 20 256) ^ 2 ≤ (25 / 10000) ^ 2 := pow_le_pow_left₀ (by linarith) h1 2
    norm_num at h2 ⊢
    linarith

/-- A controller that has added up 2^24. -/
def stuckPid (t : Int) : Pid Fl :=
  { kp := Fl.ofRat 0, ki := Fl.ofRat 1, kd := Fl.ofRat 0, reverse := false, input := Fl.ofRat 2, output := Fl.ofRat (2 ^ 24), setpoint := Fl.ofRat (5 / 2), lastTime := t,
    cumulative := Fl.ofRat (2 ^ 24), lastReading := Fl.ofRat 2, sampling := 100, lo := Fl.ofRat 0, hi := Fl.ofRat (2 ^ 25), onMeasurement := true }

/-- A process that it controls. -/
def slow : Process := ⟨1 / 2 ^ 24, 1 / 2, 0⟩

theorem stuck_computes (t now : Int) : ({ stuckPid t with input := Fl.ofRat 2 } : Pid Fl).compute now = stuckPid now := by
  have h : ∃ c o : Fl, ({ stuckPid t with input := Fl.ofRat 2 } : Pid Fl).compute now = { stuckPid now with cumulative := c, output := o } ∧
      c = ((stuckPid 0).compute 0).cumulative ∧ o = ((stuckPid 0).compute 0).output := ⟨_, _, rfl, rfl, rfl⟩
  obtain ⟨c, o, h1, h2, h3⟩ := h
  have e1 : ((stuckPid 0).compute 0).cumulative = Fl.ofRat (2 ^ 24) := by decide +kernel
  have e2 : ((stuckPid 0).compute 0).output = Fl.ofRat (2 ^ 24) := by decide +kernel
  rw [h1, h2, h3, e1, e2]
  rfl

/-- **C147 is false** as it stands: with a perfect sensor, no disturbances and gains with which the exact loop settles at 2.5 (C142), the loop in single precision stays at 2 for ever. -/
theorem C147_stuck_counterexample (t : Int) : Stable slow (exact (stuckPid t)) ∧ Follows slow (exact (stuckPid t)) 2 ∧ Margin slow (exact (stuckPid t)) (3 / 4) ∧
    (stuckPid t).setpoint.val = 5 / 2 ∧
    ∀ {ts : List Int} {fs : List Bool} {s' : Pid Fl} {x' : Rat}, runFl slow (stuckPid t) 2 (ts.map fun now => (now, Fl.ofRat, 0)) = .ok (fs, s', x') → (∀ f ∈ fs, f = true) → x' = 2 := by
  have v0 : (Fl.ofRat 0).val = 0 := by decide +kernel
  have v1 : (Fl.ofRat 1).val = 1 := by decide +kernel
  have v2 : (Fl.ofRat 2).val = 2 := by decide +kernel
  have v3 : (Fl.ofRat (5 / 2)).val = 5 / 2 := by decide +kernel
  have v4 : (Fl.ofRat (2 ^ 24)).val = 2 ^ 24 := by decide +kernel
  have v5 : (Fl.ofRat (2 ^ 25)).val = 2 ^ 25 := by decide +kernel
  have hnext : slow.next 2 (Fl.ofRat (2 ^ 24)).val = 2 := by rw [v4]; norm_num [slow, Process.next]
  refine ⟨⟨?_, ?_, ?_, rfl, v0, ?_, ?_, ?_, ?_⟩, ?_, ?_, v3, ?_⟩
  · norm_num [slow]
  · norm_num [slow]
  · norm_num [slow]
  · simp only [damping, exact, stuckPid, slow, v0]; norm_num
  · simp only [damping, exact, stuckPid, slow, v0]; norm_num
  · simp only [pull, exact, stuckPid, slow, v1]; norm_num
  · simp only [reserve, pull, damping, exact, stuckPid, slow, v0, v1]; norm_num
  · simp only [Follows, exact, stuckPid, v2]; exact hnext.symm
  · simp only [Margin, exact, stuckPid, slow, v0, v3, v5]; norm_num
  · intro ts
    induction ts generalizing t with
    | nil => intro fs s' x' h _; cases h; rfl
    | cons now ts ih =>
      intro fs s' x' h hall
      obtain ⟨s₁, fs', h1, h, hall⟩ := runFl_cons h hall
      have e : s₁ = stuckPid now := (newReading_true h1).trans (stuck_computes t now)
      subst e
      have hx : slow.next 2 (stuckPid now).output.val + 0 = 2 := by rw [add_zero]; exact hnext
      rw [hx] at h
      exact ih now h hall

/-- Such a run. -/
example : ((runFl slow (stuckPid 900) 2 [(1000, Fl.ofRat, 0), (1100, Fl.ofRat, 0), (1200, Fl.ofRat, 0)]).map fun r => (r.1, r.2.2)) = .ok ([true, true, true], 2) := by
  decide +kernel

end Spine
