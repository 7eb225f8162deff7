import Verif.Props.Pid
import Verif.Spec.Process
import Mathlib.Tactic.LinearCombination
import Mathlib.Tactic.Positivity
import Mathlib.Tactic.FieldSimp
/-!
# C142, C143: the controller in a closed loop

In exact arithmetic. `PID` always works on measurement (C78).
-/

namespace Spine
open Pid

namespace ClosedLoop

/-- A controller and the process it controls: at each of the times the quantity is read, and the process then makes one step with the output. -/
def run (p : Process) (s : Pid Rat) (x : Rat) : List Int → Res (List Bool × Pid Rat × Rat)
  | [] => .ok ([], s, x)
  | now :: ts => do
    let (f, s) ← PID.newReading s x now
    let (fs, s, x) ← run p s (p.next x s.output) ts
    return (f :: fs, s, x)

/-- The part of the last change that the proportional part and the loss take away. -/
def damping (p : Process) (s : Pid Rat) : Rat := p.gain * s.kp + p.loss

/-- The part of the error that one step takes away. -/
def pull (p : Process) (s : Pid Rat) : Rat := p.gain * s.ki

/-- How far the gains are from those at which the loop swings up. -/
def reserve (p : Process) (s : Pid Rat) : Rat := 4 - pull p s - 2 * damping p s

/-- A measure of the last two errors. -/
def energy (p : Process) (s : Pid Rat) (x : Rat) : Rat :=
  let e := s.setpoint - x
  let e₀ := s.setpoint - s.lastReading
  (2 - damping p s) * (e ^ 2 + e₀ ^ 2) - 2 * (2 - pull p s - damping p s) * e * e₀

/-- The factor by which two steps shrink the measure at least. -/
def rate (p : Process) (s : Pid Rat) : Rat :=
  1 - damping p s * (pull p s * reserve p s) ^ 2 / (8 * (2 - damping p s) ^ 3)

/-- What is asked of the gains: they are such that the loop does not swing up, and the output is not used for the derivative. -/
structure Stable (p : Process) (s : Pid Rat) : Prop where
  gain : 0 < p.gain
  loss : 0 ≤ p.loss
  loss' : p.loss ≤ 1
  mode : s.onMeasurement = true
  kd : s.kd = 0
  damping : 0 < damping p s
  damping' : ClosedLoop.damping p s < 2
  pull : 0 < pull p s
  reserve : 0 < reserve p s

/-- The reading `x` is what the process made of the reading before and the output then. -/
def Follows (p : Process) (s : Pid Rat) (x : Rat) : Prop := x = p.next s.lastReading s.cumulative

/-- The output that holds the setpoint is further than `R` (in units of the reading) from the limits. -/
def Margin (p : Process) (s : Pid Rat) (R : Rat) : Prop :=
  p.gain * s.lo + R ≤ p.loss * (s.setpoint - p.surroundings) ∧ p.loss * (s.setpoint - p.surroundings) + R ≤ p.gain * s.hi

/-! ## The algebra -/

variable {a m y₀ y₁ : Rat}

def V (a m y₁ y₀ : Rat) : Rat := (2 - m) * (y₁ ^ 2 + y₀ ^ 2) - 2 * (2 - a - m) * y₁ * y₀

theorem V_low (ha : 0 < a) (hw : 0 < 4 - a - 2 * m) : min a (4 - a - 2 * m) * (y₁ ^ 2 + y₀ ^ 2) ≤ V a m y₁ y₀ := by
  have h1 := min_le_left a (4 - a - 2 * m)
  have h2 := min_le_right a (4 - a - 2 * m)
  unfold V
  nlinarith [mul_nonneg (sub_nonneg.mpr h1) (sq_nonneg (y₁ + y₀)), mul_nonneg (sub_nonneg.mpr h2) (sq_nonneg (y₁ - y₀)),
    sq_nonneg (y₁ + y₀), sq_nonneg (y₁ - y₀)]

/-- The next error, when nothing is cut off. -/
def nextErr (a m y₁ y₀ : Rat) : Rat := (2 - a - m) * y₁ - (1 - m) * y₀

theorem V_step : V a m (nextErr a m y₁ y₀) y₁ = V a m y₁ y₀ - m * ((2 - a - m) * y₁ - (2 - m) * y₀) ^ 2 := by
  unfold V nextErr; ring

theorem V_two (hm : 0 < m) (hm' : m < 2) (ha : 0 < a) (hw : 0 < 4 - a - 2 * m) :
    V a m (nextErr a m (nextErr a m y₁ y₀) y₁) (nextErr a m y₁ y₀) ≤
      (1 - m * (a * (4 - a - 2 * m)) ^ 2 / (8 * (2 - m) ^ 3)) * V a m y₁ y₀ := by
  rw [V_step, V_step]
  obtain ⟨k, hk⟩ : ∃ k, k = 2 - m := ⟨_, rfl⟩
  obtain ⟨t, ht⟩ : ∃ t, t = 2 - a - m := ⟨_, rfl⟩
  have hk0 : 0 < k := by rw [hk]; linarith
  have hk2 : k < 2 := by rw [hk]; linarith
  have htk : t ^ 2 < k ^ 2 := by
    have : k ^ 2 - t ^ 2 = a * (4 - a - 2 * m) := by rw [hk, ht]; ring
    have := mul_pos ha hw
    linarith
  have hD : a * (4 - a - 2 * m) = k ^ 2 - t ^ 2 := by rw [hk, ht]; ring
  obtain ⟨u₀, hu₀⟩ : ∃ u, u = t * y₁ - k * y₀ := ⟨_, rfl⟩
  obtain ⟨u₁, hu₁⟩ : ∃ u, u = t * nextErr a m y₁ y₀ - k * y₁ := ⟨_, rfl⟩
  have hu₁' : u₁ = (t ^ 2 - k) * y₁ - t * (k - 1) * y₀ := by rw [hu₁, nextErr, hk, ht]; ring
  have e1 : (k ^ 2 - t ^ 2) * y₁ = t * (k - 1) * u₀ - k * u₁ := by rw [hu₀, hu₁']; ring
  have e0 : (k ^ 2 - t ^ 2) * y₀ = (t ^ 2 - k) * u₀ - t * u₁ := by rw [hu₀, hu₁']; ring
  have cs : ∀ p q u v : Rat, (p * u - q * v) ^ 2 ≤ (p ^ 2 + q ^ 2) * (u ^ 2 + v ^ 2) := by
    intro p q u v
    nlinarith [sq_nonneg (p * v + q * u)]
  have b1 : ((k ^ 2 - t ^ 2) * y₁) ^ 2 ≤ ((t * (k - 1)) ^ 2 + k ^ 2) * (u₀ ^ 2 + u₁ ^ 2) := by rw [e1]; exact cs ..
  have b0 : ((k ^ 2 - t ^ 2) * y₀) ^ 2 ≤ ((t ^ 2 - k) ^ 2 + t ^ 2) * (u₀ ^ 2 + u₁ ^ 2) := by rw [e0]; exact cs ..
  have c1 : (t * (k - 1)) ^ 2 ≤ k ^ 2 := by
    have : (k - 1) ^ 2 ≤ 1 := by nlinarith
    rw [mul_pow]
    nlinarith [sq_nonneg t]
  have c0 : (t ^ 2 - k) ^ 2 ≤ k ^ 2 := by
    have h1 := sq_nonneg t
    have h2 : t ^ 2 ≤ 2 * k := by nlinarith
    nlinarith
  have hu : 0 ≤ u₀ ^ 2 + u₁ ^ 2 := by positivity
  have hy : (k ^ 2 - t ^ 2) ^ 2 * (y₁ ^ 2 + y₀ ^ 2) ≤ 4 * k ^ 2 * (u₀ ^ 2 + u₁ ^ 2) := by
    have h1 := mul_le_mul_of_nonneg_right c1 hu
    have h2 := mul_le_mul_of_nonneg_right c0 hu
    have h3 := mul_le_mul_of_nonneg_right htk.le hu
    have h4 : (k ^ 2 - t ^ 2) ^ 2 * (y₁ ^ 2 + y₀ ^ 2) = ((k ^ 2 - t ^ 2) * y₁) ^ 2 + ((k ^ 2 - t ^ 2) * y₀) ^ 2 := by ring
    rw [h4]
    refine (add_le_add b1 b0).trans ?_
    rw [add_mul, add_mul]
    linarith
  have hV : V a m y₁ y₀ ≤ 2 * k * (y₁ ^ 2 + y₀ ^ 2) := by
    have h1 : -k < t ∧ t < k := abs_lt.mp (abs_lt_of_sq_lt_sq htk hk0.le)
    have : V a m y₁ y₀ = k * (y₁ ^ 2 + y₀ ^ 2) - 2 * t * y₁ * y₀ := by rw [V, hk, ht]
    rw [this]
    nlinarith [mul_nonneg (sub_nonneg.mpr h1.2.le) (sq_nonneg (y₁ - y₀)), mul_nonneg (by linarith [h1.1] : (0 : Rat) ≤ k + t) (sq_nonneg (y₁ + y₀))]
  have key : (k ^ 2 - t ^ 2) ^ 2 * V a m y₁ y₀ ≤ 8 * k ^ 3 * (u₀ ^ 2 + u₁ ^ 2) := by
    have h1 := mul_le_mul_of_nonneg_left hV (sq_nonneg (k ^ 2 - t ^ 2))
    have h2 := mul_le_mul_of_nonneg_left hy (by linarith : (0 : Rat) ≤ 2 * k)
    refine h1.trans (le_of_eq_of_le (by ring) (h2.trans (le_of_eq (by ring))))
  have h8 : (0 : Rat) < 8 * k ^ 3 := by positivity
  have key' : (k ^ 2 - t ^ 2) ^ 2 / (8 * k ^ 3) * V a m y₁ y₀ ≤ u₀ ^ 2 + u₁ ^ 2 := by
    rw [div_mul_eq_mul_div, div_le_iff₀ h8]
    linarith
  rw [hD, ← hk, ← ht, ← hu₀, ← hu₁, mul_div_assoc]
  have := mul_le_mul_of_nonneg_left key' hm.le
  rw [sub_mul, one_mul, mul_assoc]
  linarith

/-! ## The loop -/

theorem clamp_id {lo hi x : Rat} (h1 : lo ≤ x) (h2 : x ≤ hi) : clamp lo hi x = x := by
  simp [clamp, Arith.lt, not_lt.mpr h1, not_lt.mpr h2]

theorem clamp_inside {lo hi x : Rat} (h : lo ≤ hi) : lo ≤ clamp lo hi x ∧ clamp lo hi x ≤ hi := by
  simp only [clamp, Arith.lt, decide_eq_true_eq]
  split_ifs <;> constructor <;> linarith

/-- After any step without derivative part, the reading follows. -/
theorem follows_step {p : Process} {s s' : Pid Rat} {x : Rat} {now : Int} (hl : s.lo ≤ s.hi) (hm : s.onMeasurement = true) (hd : s.kd = 0)
    (h : PID.newReading s x now = .ok (true, s')) : Follows p s' (p.next x s'.output) ∧ s'.lastReading = x := by
  rw [newReading_true h]
  refine ⟨?_, rfl⟩
  simp only [Follows, compute, hm, hd, if_true, Arith.add, Arith.sub, Arith.mul, Arith.ofRat, fzero, zero_mul, sub_zero, zero_add]
  obtain ⟨h1, h2⟩ := clamp_inside (x := s.cumulative + s.ki * (s.setpoint - x) - s.kp * (x - s.lastReading)) hl
  rw [clamp_id h1 h2]

theorem energy_V (p : Process) (s : Pid Rat) (x : Rat) :
    energy p s x = V (pull p s) (damping p s) (s.setpoint - x) (s.setpoint - s.lastReading) := rfl

theorem abs_le_of_energy {p : Process} {s : Pid Rat} {x R : Rat} (hs : Stable p s) (hR : 0 ≤ R)
    (hE : 2 * energy p s x ≤ min (pull p s) (reserve p s) * R ^ 2) : |s.setpoint - x| + |s.setpoint - s.lastReading| ≤ R := by
  have h1 := V_low (y₁ := s.setpoint - x) (y₀ := s.setpoint - s.lastReading) hs.pull hs.reserve
  rw [← energy_V] at h1
  have hmin : 0 < min (pull p s) (reserve p s) := lt_min hs.pull hs.reserve
  have h2 : 2 * ((s.setpoint - x) ^ 2 + (s.setpoint - s.lastReading) ^ 2) ≤ R ^ 2 := by
    have : min (pull p s) (reserve p s) * (2 * ((s.setpoint - x) ^ 2 + (s.setpoint - s.lastReading) ^ 2)) ≤ min (pull p s) (reserve p s) * R ^ 2 := by
      unfold reserve at *
      linarith
    exact le_of_mul_le_mul_left this hmin
  refine abs_le_of_sq_le_sq' ?_ hR |>.2
  have e1 := sq_abs (s.setpoint - x)
  have e0 := sq_abs (s.setpoint - s.lastReading)
  nlinarith [sq_nonneg (|s.setpoint - x| - |s.setpoint - s.lastReading|)]

theorem step {p : Process} {s s' : Pid Rat} {x R : Rat} {now : Int} (hs : Stable p s) (hf : Follows p s x) (hR : 0 ≤ R) (hM : Margin p s R)
    (hE : 2 * energy p s x ≤ min (pull p s) (reserve p s) * R ^ 2) (h : PID.newReading s x now = .ok (true, s')) :
    Stable p s' ∧ Follows p s' (p.next x s'.output) ∧ Margin p s' R ∧ pull p s' = pull p s ∧ damping p s' = damping p s ∧ s'.setpoint = s.setpoint ∧
      s'.lastReading = x ∧
      s.setpoint - p.next x s'.output = nextErr (pull p s) (damping p s) (s.setpoint - x) (s.setpoint - s.lastReading) := by
  have hl : s.lo ≤ s.hi := by
    have := hM.1.trans (by linarith [hM.2] : p.loss * (s.setpoint - p.surroundings) ≤ p.gain * s.hi - R)
    have : p.gain * s.lo ≤ p.gain * s.hi := by linarith
    exact le_of_mul_le_mul_left this hs.gain
  have hfs := follows_step (p := p) hl hs.mode hs.kd h
  have hR' : ∃ y, y = nextErr (pull p s) (damping p s) (s.setpoint - x) (s.setpoint - s.lastReading) := ⟨_, rfl⟩
  obtain ⟨y, hy⟩ := hR'
  have hV : V (pull p s) (damping p s) y (s.setpoint - x) ≤ energy p s x := by
    rw [hy, V_step, energy_V]
    have := mul_nonneg hs.damping.le (sq_nonneg ((2 - pull p s - damping p s) * (s.setpoint - x) - (2 - damping p s) * (s.setpoint - s.lastReading)))
    linarith
  have hsum : |y| + |s.setpoint - x| ≤ R := by
    have h1 := V_low (y₁ := y) (y₀ := s.setpoint - x) hs.pull hs.reserve
    have hmin : 0 < min (pull p s) (reserve p s) := lt_min hs.pull hs.reserve
    have h2 : 2 * (y ^ 2 + (s.setpoint - x) ^ 2) ≤ R ^ 2 := by
      have : min (pull p s) (reserve p s) * (2 * (y ^ 2 + (s.setpoint - x) ^ 2)) ≤ min (pull p s) (reserve p s) * R ^ 2 := by
        unfold reserve at *
        linarith
      exact le_of_mul_le_mul_left this hmin
    refine abs_le_of_sq_le_sq' ?_ hR |>.2
    have e1 := sq_abs y
    have e0 := sq_abs (s.setpoint - x)
    nlinarith [sq_nonneg (|y| - |s.setpoint - x|)]
  have hc : p.gain * (s.cumulative + s.ki * (s.setpoint - x) - s.kp * (x - s.lastReading)) =
      (1 - p.loss) * (s.setpoint - x) - y + p.loss * (s.setpoint - p.surroundings) := by
    rw [hy, nextErr]
    unfold Follows Process.next at hf
    unfold pull damping
    linear_combination -hf
  have hb : |(1 - p.loss) * (s.setpoint - x) - y| ≤ R := by
    have h1 : |(1 - p.loss) * (s.setpoint - x)| ≤ |s.setpoint - x| := by
      rw [abs_mul, abs_of_nonneg (by linarith [hs.loss'] : (0 : Rat) ≤ 1 - p.loss)]
      nlinarith [abs_nonneg (s.setpoint - x), hs.loss]
    have h2 := abs_sub ((1 - p.loss) * (s.setpoint - x)) y
    linarith
  rw [abs_le] at hb
  have c1 : s.lo ≤ s.cumulative + s.ki * (s.setpoint - x) - s.kp * (x - s.lastReading) := by
    refine le_of_mul_le_mul_left ?_ hs.gain
    rw [hc]; linarith [hM.1, hb.1]
  have c2 : s.cumulative + s.ki * (s.setpoint - x) - s.kp * (x - s.lastReading) ≤ s.hi := by
    refine le_of_mul_le_mul_left ?_ hs.gain
    rw [hc]; linarith [hM.2, hb.2]
  have ho : s'.output = s.cumulative + s.ki * (s.setpoint - x) - s.kp * (x - s.lastReading) := by
    rw [newReading_true h]
    simp only [compute, hs.mode, hs.kd, if_true, Arith.add, Arith.sub, Arith.mul, Arith.ofRat, fzero, zero_mul, sub_zero, zero_add]
    rw [clamp_id c1 c2, clamp_id c1 c2]
  have hset : s'.kp = s.kp ∧ s'.ki = s.ki ∧ s'.kd = s.kd ∧ s'.setpoint = s.setpoint ∧ s'.lo = s.lo ∧ s'.hi = s.hi ∧ s'.onMeasurement = s.onMeasurement := by
    rw [newReading_true h]; exact ⟨rfl, rfl, rfl, rfl, rfl, rfl, rfl⟩
  obtain ⟨e1, e2, e3, e4, e5, e6, e7⟩ := hset
  have ep : pull p s' = pull p s := by rw [pull, e2]; rfl
  have ed : damping p s' = damping p s := by rw [damping, e1]; rfl
  refine ⟨⟨hs.gain, hs.loss, hs.loss', by rw [e7, hs.mode], by rw [e3, hs.kd], by rw [ed]; exact hs.damping, by rw [ed]; exact hs.damping',
    by rw [ep]; exact hs.pull, ?_⟩, hfs.1, by rw [Margin, e4, e5, e6]; exact hM, ep, ed, e4, hfs.2, ?_⟩
  · have := hs.reserve
    rw [reserve] at this ⊢
    rw [ep, ed]; exact this
  · rw [← hy, Process.next, ho, mul_comm p.gain, mul_comm _ p.gain, hc]; ring

theorem run_cons {p : Process} {s s' : Pid Rat} {x x' : Rat} {now : Int} {ts : List Int} {fs : List Bool}
    (h : run p s x (now :: ts) = .ok (fs, s', x')) (hall : ∀ f ∈ fs, f = true) :
    ∃ s₁ fs', PID.newReading s x now = .ok (true, s₁) ∧ run p s₁ (p.next x s₁.output) ts = .ok (fs', s', x') ∧ ∀ f ∈ fs', f = true := by
  rw [run] at h
  obtain ⟨⟨f, s₁⟩, h1, h⟩ := res_bind h
  obtain ⟨⟨fs', s₂, x₂⟩, h2, h⟩ := res_bind h
  cases h
  obtain rfl := hall f (by simp)
  exact ⟨s₁, fs', h1, h2, fun f hf => hall f (by simp [hf])⟩

theorem energy_step {p : Process} {s s' : Pid Rat} {x R : Rat} {now : Int} (hs : Stable p s) (hf : Follows p s x) (hR : 0 ≤ R) (hM : Margin p s R)
    (hE : 2 * energy p s x ≤ min (pull p s) (reserve p s) * R ^ 2) (h : PID.newReading s x now = .ok (true, s')) :
    energy p s' (p.next x s'.output) ≤ energy p s x := by
  obtain ⟨-, -, -, ep, ed, er, el, ee⟩ := step hs hf hR hM hE h
  rw [energy_V, ep, ed, er, el, ee, V_step, energy_V]
  have := mul_nonneg hs.damping.le (sq_nonneg ((2 - pull p s - damping p s) * (s.setpoint - x) - (2 - damping p s) * (s.setpoint - s.lastReading)))
  linarith

theorem rate_range {p : Process} {s : Pid Rat} (hs : Stable p s) : 0 ≤ rate p s ∧ rate p s < 1 := by
  constructor
  · have h1 := V_two (y₁ := 1) (y₀ := 0) hs.damping hs.damping' hs.pull hs.reserve
    have h2 := V_low (y₁ := nextErr (pull p s) (damping p s) (nextErr (pull p s) (damping p s) 1 0) 1)
      (y₀ := nextErr (pull p s) (damping p s) 1 0) hs.pull hs.reserve
    have h3 : 0 ≤ min (pull p s) (4 - pull p s - 2 * damping p s) := (lt_min hs.pull hs.reserve).le
    have h4 := h2.trans h1
    have h5 := (mul_nonneg h3 (add_nonneg (sq_nonneg _) (sq_nonneg _))).trans h4
    have h6 : V (pull p s) (damping p s) 1 0 = 2 - damping p s := by unfold V; ring
    rw [h6] at h5
    exact nonneg_of_mul_nonneg_left h5 (by linarith [hs.damping'])
  · have h1 : 0 < 2 - damping p s := by linarith [hs.damping']
    have := hs.damping
    have := mul_pos hs.pull hs.reserve
    have : 0 < damping p s * (pull p s * reserve p s) ^ 2 / (8 * (2 - damping p s) ^ 3) := by positivity
    rw [rate]
    linarith

theorem settles {p : Process} {R : Rat} (hR : 0 ≤ R) : ∀ (ts : List Int) {s s' : Pid Rat} {x x' : Rat} {fs : List Bool}, Stable p s → Follows p s x →
    Margin p s R → 2 * energy p s x ≤ min (pull p s) (reserve p s) * R ^ 2 → run p s x ts = .ok (fs, s', x') → (∀ f ∈ fs, f = true) →
    min (pull p s) (reserve p s) * (s.setpoint - x') ^ 2 ≤ rate p s ^ (ts.length / 2) * energy p s x
  | [], s, s', x, x', fs, hs, _, _, _, h, _ => by
    cases h
    have h1 := V_low (y₁ := s.setpoint - x) (y₀ := s.setpoint - s.lastReading) hs.pull hs.reserve
    have h2 := mul_nonneg (lt_min hs.pull hs.reserve).le (sq_nonneg (s.setpoint - s.lastReading))
    rw [← energy_V] at h1
    simp only [List.length_nil, Nat.zero_div, pow_zero, one_mul]
    unfold reserve at *
    linarith
  | [t], s, s', x, x', fs, hs, hf, hM, hE, h, hall => by
    obtain ⟨s₁, fs', h1, h2, -⟩ := run_cons h hall
    cases h2
    obtain ⟨hs', -, -, ep, ed, er, -, -⟩ := step hs hf hR hM hE h1
    have h3 := energy_step hs hf hR hM hE h1
    have h4 := V_low (y₁ := s'.setpoint - p.next x s'.output) (y₀ := s'.setpoint - s'.lastReading) hs'.pull hs'.reserve
    have h5 := mul_nonneg (lt_min hs'.pull hs'.reserve).le (sq_nonneg (s'.setpoint - s'.lastReading))
    rw [← energy_V] at h4
    have h6 : reserve p s' = reserve p s := by rw [reserve, ep, ed]; rfl
    rw [h6, ep] at h5
    rw [show 4 - pull p s' - 2 * damping p s' = reserve p s from h6, ep, er] at h4
    rw [er] at h5
    simp only [List.length_cons, List.length_nil, Nat.zero_add, Nat.reduceDiv, pow_zero, one_mul]
    linarith
  | t₁ :: t₂ :: ts, s, s', x, x', fs, hs, hf, hM, hE, h, hall => by
    obtain ⟨s₁, fs₁, h1, h, hall₁⟩ := run_cons h hall
    obtain ⟨s₂, fs₂, h2, h, hall₂⟩ := run_cons h hall₁
    have d1 := energy_step hs hf hR hM hE h1
    obtain ⟨hs₁, hf₁, hM₁, ep₁, ed₁, er₁, el₁, ee₁⟩ := step hs hf hR hM hE h1
    have q₁ : reserve p s₁ = reserve p s := by rw [reserve, ep₁, ed₁]; rfl
    have hE₁ : 2 * energy p s₁ (p.next x s₁.output) ≤ min (pull p s₁) (reserve p s₁) * R ^ 2 := by rw [ep₁, q₁]; linarith
    have d2 := energy_step hs₁ hf₁ hR hM₁ hE₁ h2
    obtain ⟨hs₂, hf₂, hM₂, ep₂, ed₂, er₂, el₂, ee₂⟩ := step hs₁ hf₁ hR hM₁ hE₁ h2
    have q₂ : reserve p s₂ = reserve p s := by rw [← q₁, reserve, ep₂, ed₂]; rfl
    have hE₂ : 2 * energy p s₂ (p.next (p.next x s₁.output) s₂.output) ≤ min (pull p s₂) (reserve p s₂) * R ^ 2 := by
      rw [ep₂, ep₁, q₂]; linarith
    have ih := settles hR ts hs₂ hf₂ hM₂ hE₂ h hall₂
    have hr : rate p s₂ = rate p s := by rw [rate, rate, q₂, ep₂, ep₁, ed₂, ed₁]
    have hen : energy p s₂ (p.next (p.next x s₁.output) s₂.output) ≤ rate p s * energy p s x := by
      rw [energy_V, energy_V, ep₂, ed₂, er₂, el₂, ee₂, el₁, ep₁, ed₁, er₁, ee₁]
      exact V_two hs.damping hs.damping' hs.pull hs.reserve
    rw [hr, q₂, ep₂, ep₁, er₂, er₁] at ih
    refine ih.trans ?_
    rw [show (t₁ :: t₂ :: ts).length / 2 = ts.length / 2 + 1 by simp; omega, pow_succ, mul_assoc]
    exact mul_le_mul_of_nonneg_left hen (pow_nonneg (rate_range hs).1 _)

end ClosedLoop

open ClosedLoop

/-- **C142.** A controller with gains for which the loop does not swing up, on a process that it can hold at the setpoint with an output within the
limits, settles at the setpoint: the square of the error shrinks at least by the factor `rate` with every two computations. -/
theorem C142_settles {p : Process} {s s' : Pid Rat} {x x' R : Rat} {ts : List Int} {fs : List Bool} (hs : Stable p s) (hf : Follows p s x)
    (hR : 0 ≤ R) (hM : Margin p s R) (hE : 2 * energy p s x ≤ min (pull p s) (reserve p s) * R ^ 2)
    (h : ClosedLoop.run p s x ts = .ok (fs, s', x')) (hall : ∀ f ∈ fs, f = true) :
    min (pull p s) (reserve p s) * (s.setpoint - x') ^ 2 ≤ rate p s ^ (ts.length / 2) * energy p s x ∧ 0 ≤ rate p s ∧ rate p s < 1 :=
  ⟨settles hR ts hs hf hM hE h hall, rate_range hs⟩

/-- From any state, for instance after `initialize()`, the first computation leads to a state in which the reading follows. -/
theorem C142_first {p : Process} {s s' : Pid Rat} {x : Rat} {now : Int} (hl : s.lo ≤ s.hi) (hm : s.onMeasurement = true) (hd : s.kd = 0)
    (h : PID.newReading s x now = .ok (true, s')) : Follows p s' (p.next x s'.output) ∧ s'.lastReading = x :=
  follows_step hl hm hd h

/-- A heated room, in surroundings of 20 °C. -/
def room : Process := ⟨1 / 100, 1 / 50, 20⟩

/-- A controller for 60 °C, with the limits of a PWM output, when the room is at 59.6 °C. -/
def roomPid : Pid Rat :=
  { kp := 20, ki := 3, kd := 0, reverse := false, input := 298 / 5, output := 396 / 5, setpoint := 60, lastTime := 900, cumulative := 396 / 5,
    lastReading := 298 / 5, sampling := 100, lo := 0, hi := 255, onMeasurement := true }

/-- The conditions are met, and the loop runs with a computation for every reading; after eight of them the error is less than half of that at first. -/
example : Stable room roomPid ∧ Follows room roomPid (298 / 5) ∧ Margin room roomPid (4 / 5) ∧
    2 * energy room roomPid (298 / 5) ≤ min (pull room roomPid) (reserve room roomPid) * (4 / 5) ^ 2 ∧
    ((ClosedLoop.run room roomPid (298 / 5) [1000, 1100, 1200, 1300, 1400, 1500, 1600, 1700]).map fun r => (r.1, decide (60 - 1 / 5 < r.2.2 ∧ r.2.2 < 60 + 1 / 5))) =
      .ok ([true, true, true, true, true, true, true, true], true) := by
  refine ⟨⟨by norm_num [room], by norm_num [room], by norm_num [room], rfl, rfl, by norm_num [room, roomPid, damping], by norm_num [room, roomPid, damping],
    by norm_num [room, roomPid, pull], by norm_num [room, roomPid, reserve, pull, damping]⟩, by norm_num [Follows, Process.next, room, roomPid],
    by norm_num [Margin, room, roomPid], by norm_num [energy, room, roomPid, reserve, pull, damping], by decide +kernel⟩

/-- A controller with a large gain. -/
def swinging (t : Int) : Pid Rat :=
  { kp := 4, ki := 1, kd := 0, reverse := false, input := -1 / 2, output := 1, setpoint := 0, lastTime := t, cumulative := 1,
    lastReading := -1 / 2, sampling := 100, lo := -1, hi := 1, onMeasurement := true }

/-- The condition on the gains is needed: with a gain that is too large, the reading swings from one side of the setpoint to the other for ever. -/
theorem C142_swings {ts : List Int} {fs : List Bool} {s' : Pid Rat} {t : Int} {x' : Rat}
    (h : ClosedLoop.run ⟨1, 0, 0⟩ (swinging t) (1 / 2) ts = .ok (fs, s', x'))
    (hall : ∀ f ∈ fs, f = true) : |x'| = 1 / 2 := by
  suffices key : ∀ (ts : List Int) (s s' : Pid Rat) (x x' : Rat) (fs : List Bool), s.kp = 4 → s.ki = 1 → s.kd = 0 → s.setpoint = 0 → s.lo = -1 → s.hi = 1 →
      s.onMeasurement = true → (s.cumulative = 1 ∧ s.lastReading = -1 / 2 ∧ x = 1 / 2 ∨ s.cumulative = -1 ∧ s.lastReading = 1 / 2 ∧ x = -1 / 2) →
      ClosedLoop.run ⟨1, 0, 0⟩ s x ts = .ok (fs, s', x') → (∀ f ∈ fs, f = true) → |x'| = 1 / 2 from
    key ts _ s' _ x' fs rfl rfl rfl rfl rfl rfl rfl (.inl ⟨rfl, rfl, rfl⟩) h hall
  clear h hall
  intro ts
  induction ts with
  | nil =>
    intro s s' x x' fs _ _ _ _ _ _ _ hx h _
    cases h
    rcases hx with ⟨-, -, rfl⟩ | ⟨-, -, rfl⟩ <;> norm_num
  | cons now ts ih =>
    intro s s' x x' fs h1 h2 h3 h4 h5 h6 h7 hx h hall
    obtain ⟨s₁, fs', hr, h, hall⟩ := run_cons h hall
    have e := newReading_true hr
    refine ih s₁ s' _ x' fs' (by rw [e]; exact h1) (by rw [e]; exact h2) (by rw [e]; exact h3) (by rw [e]; exact h4) (by rw [e]; exact h5)
      (by rw [e]; exact h6) (by rw [e]; exact h7) ?_ h hall
    rw [e]
    rcases hx with ⟨c1, c2, rfl⟩ | ⟨c1, c2, rfl⟩
    · refine .inr ⟨?_, rfl, ?_⟩ <;>
      norm_num [compute, clamp, Process.next, h1, h2, h3, h4, h5, h6, h7, c1, c2, Arith.add, Arith.sub, Arith.mul, Arith.lt, Arith.ofRat, fzero]
    · refine .inl ⟨?_, rfl, ?_⟩ <;>
      norm_num [compute, clamp, Process.next, h1, h2, h3, h4, h5, h6, h7, c1, c2, Arith.add, Arith.sub, Arith.mul, Arith.lt, Arith.ofRat, fzero]

/-- Such a run of any length up to the range of the clock that is exact: here, four computations. -/
example : ((ClosedLoop.run ⟨1, 0, 0⟩ (swinging 900) (1 / 2) [1000, 1100, 1200, 1300]).map fun r => (r.1, r.2.2)) =
    .ok ([true, true, true, true], 1 / 2) := by decide +kernel

/-! ## C143: the setpoint -/

/-- Is the operation no change of the setpoint? -/
def keepsSetpoint : PID.Op Rat → Bool
  | .setpoint _ => false
  | _ => true

/-- Neither does it set an integral gain, nor to work on error. -/
def proportional : PID.Op Rat → Prop
  | .tunings _ ki _ m => ki = 0 ∧ m = true
  | _ => True

namespace ClosedLoop

/-- No integral gain, and on measurement. -/
def Deaf (s : Pid Rat) : Prop := s.ki = 0 ∧ s.onMeasurement = true

theorem exec_setpoint {cfg : PidConfig Rat} {b : Build} {s s' : Pid Rat} {op : PID.Op Rat} (r : Rat) (hd : Deaf s) (hp : proportional op)
    (hk : keepsSetpoint op = true) (h : PID.exec cfg b s op = .ok s') :
    PID.exec cfg b { s with setpoint := r } op = .ok { s' with setpoint := r } ∧ Deaf s' := by
  obtain ⟨h1, h2⟩ := hd
  cases op with
  | setpoint v => simp [keepsSetpoint] at hk
  | start =>
    simp only [PID.exec, PID.start, setLimits, setSampling] at h ⊢
    obtain ⟨s₁, e, h⟩ := res_bind h
    cases h
    obtain ⟨c, ec, e⟩ := res_bind e
    rw [ec, res_bind_ok]
    by_cases hle : Arith.le cfg.upper cfg.lower = true <;> cases c <;>
      simp only [hle, if_true, if_false, Bool.false_eq_true, res_pure, res_bind_ok] at e ⊢
    all_goals first
      | (cases e; exact ⟨rfl, h1, h2⟩)
      | (split at e
         · cases e
         · next hz =>
           cases e
           rw [if_neg hz]
           exact ⟨rfl, by simp [Pid.start, Arith.mul, h1], h2⟩)
  | reading v now =>
    simp only [PID.exec, PID.newReading, update] at h ⊢
    obtain ⟨⟨f, s₁⟩, e, h⟩ := res_bind h
    cases h
    obtain ⟨d, ed, e⟩ := res_bind e
    rw [ed, res_bind_ok]
    obtain ⟨c, ec, e⟩ := res_bind e
    rw [ec, res_bind_ok]
    cases c
    · cases e
      exact ⟨rfl, h1, h2⟩
    · cases e
      refine ⟨?_, h1, h2⟩
      simp only [if_true, res_pure, res_bind_ok, compute, h1, h2, Arith.mul, zero_mul]
  | tunings kp ki kd m =>
    obtain ⟨rfl, rfl⟩ := hp
    simp only [PID.exec, setTunings] at h ⊢
    obtain ⟨_, e1, h⟩ := res_bind h
    rw [e1, res_bind_ok]
    obtain ⟨c, e2, h⟩ := res_bind h
    rw [e2, res_bind_ok]
    obtain ⟨_, e3, h⟩ := res_bind h
    rw [e3, res_bind_ok]
    cases h
    cases s.reverse <;> simp [negate, Deaf, Arith.mul, Arith.sub, Arith.ofRat, fzero]

theorem run_setpoint {cfg : PidConfig Rat} {b : Build} (r : Rat) : ∀ {ops : List (PID.Op Rat)} {s s' : Pid Rat}, Deaf s → (∀ op ∈ ops, proportional op) →
    PID.run cfg b s ops = .ok s' → PID.run cfg b { s with setpoint := r } (ops.filter keepsSetpoint) = .ok { s' with setpoint := r } := by
  intro ops
  induction ops with
  | nil => intro s s' _ _ h; cases h; rfl
  | cons op ops ih =>
    intro s s' hd hp h
    rw [PID.run] at h
    obtain ⟨s₁, e, h⟩ := res_bind h
    cases hk : keepsSetpoint op with
    | true =>
      obtain ⟨e', hd'⟩ := exec_setpoint r hd (hp op (by simp)) hk e
      rw [List.filter_cons_of_pos hk, PID.run, e', res_bind_ok]
      exact ih hd' (fun o ho => hp o (by simp [ho])) h
    | false =>
      rw [List.filter_cons_of_neg (by simp [hk])]
      cases op <;> simp only [keepsSetpoint, Bool.true_eq_false] at hk
      rename_i v
      cases e
      exact ih (s := { s with setpoint := v }) hd (fun o ho => hp o (by simp [ho])) h

end ClosedLoop

/-- **C143 is false** for controllers without integral gain: whatever is set as the setpoint, and when, has no effect on the output. -/
theorem C143_ignored_counterexample {cfg : PidConfig Rat} {b : Build} {now : Int} {s s' : Pid Rat} (hki : cfg.ki = 0) (hc : PID.create cfg b now = .ok s)
    {ops : List (PID.Op Rat)} (hp : ∀ op ∈ ops, proportional op) (h : PID.run cfg b s ops = .ok s') :
    ∃ s'', PID.run cfg b s (ops.filter keepsSetpoint) = .ok s'' ∧ s''.output = s'.output := by
  refine ⟨_, run_setpoint (s := s) s.setpoint ⟨?_, (C78_ignored_counterexample true hc).1⟩ hp h, rfl⟩
  rw [PID.create] at hc
  obtain ⟨s₁, h1, hc⟩ := res_bind hc
  obtain ⟨_, -, hc⟩ := res_bind hc
  cases hc
  rw [Pid.create] at h1
  obtain ⟨s₂, h2, h1⟩ := res_bind h1
  obtain ⟨_, -, h1⟩ := res_bind h1
  cases h1
  simp only [setTunings] at h2
  obtain ⟨_, -, h2⟩ := res_bind h2
  obtain ⟨_, -, h2⟩ := res_bind h2
  obtain ⟨_, -, h2⟩ := res_bind h2
  cases h2
  split <;> simp [negate, hki, Arith.mul, Arith.sub, Arith.ofRat, fzero]

/-- A controller with `Kp = 20` alone, asked for 50 and then for 100 while the reading is 10, gives 0 all the time. -/
example : (do
    let cfg : PidConfig Rat := { PidConfig.default with ki := 0, kd := 0 }
    let s ← PID.create cfg .debug 1000
    let s1 ← PID.run cfg .debug s [.start, .reading 10 1000, .setpoint 50, .reading 10 1100, .setpoint 100, .reading 10 1200]
    return s1.output : Res Rat) = .ok 0 := by decide +kernel

/-- **C143**, the part that holds: as long as no limit is reached, raising the setpoint by `d` raises the output of the next computation by `d` times the integral
gain (and the proportional gain if the controller works on error). Missing: controllers without integral gain that work on measurement. -/
theorem C143_acts_partial {cfg : PidConfig Rat} {b : Build} {s s₀ s₁ s₂ : Pid Rat} {r v : Rat} {now : Int}
    (h₁ : PID.newReading s v now = .ok (true, s₁)) (h₀ : PID.exec cfg b s (.setpoint r) = .ok s₀)
    (h₂ : PID.newReading s₀ v now = .ok (true, s₂))
    (hc₁ : s.lo < s₁.cumulative ∧ s₁.cumulative < s.hi) (hc₂ : s.lo < s₂.cumulative ∧ s₂.cumulative < s.hi)
    (ho₁ : s.lo < s₁.output ∧ s₁.output < s.hi) (ho₂ : s.lo < s₂.output ∧ s₂.output < s.hi) :
    s₂.output - s₁.output = (s.ki + if s.onMeasurement then 0 else s.kp) * (r - s.setpoint) := by
  have hun : ∀ {lo hi x : Rat}, lo < clamp lo hi x → clamp lo hi x < hi → clamp lo hi x = x := by
    intro lo hi x
    simp only [clamp, Arith.lt, decide_eq_true_eq]
    split_ifs <;> intro a b <;> first | rfl | exact absurd a (lt_irrefl _) | exact absurd b (lt_irrefl _)
  simp only [PID.exec, Except.ok.injEq] at h₀
  subst h₀
  rw [newReading_true h₁] at hc₁ ho₁ ⊢
  rw [newReading_true h₂] at hc₂ ho₂ ⊢
  simp only [compute] at hc₁ hc₂ ho₁ ho₂ ⊢
  rw [hun ho₁.1 ho₁.2, hun ho₂.1 ho₂.2, hun hc₁.1 hc₁.2, hun hc₂.1 hc₂.2]
  simp only [Arith.add, Arith.sub, Arith.mul, Arith.ofRat, fzero]
  cases s.onMeasurement <;> simp only [Bool.false_eq_true, if_true, if_false] <;> ring

/-- A controller with `Ki = 1` at a reading of 10: asked for 20 instead of 15 its integral and its output are 5 times the gain per sample higher. -/
example : (do
    let cfg : PidConfig Rat := { PidConfig.default with kp := 0, ki := 1, kd := 0 }
    let s ← PID.create cfg .debug 1000
    let s ← PID.run cfg .debug s [.start, .setpoint 15]
    let (d1, s1) ← PID.newReading s 10 1100
    let s0 ← PID.exec cfg .debug s (.setpoint 20)
    let (d2, s2) ← PID.newReading s0 10 1100
    return (d1, d2, s2.output - s1.output == s.ki * 5, decide (s.lo < s1.cumulative), decide (s2.output < s.hi)) : Res (Bool × Bool × Bool × Bool × Bool))
    = .ok (true, true, true, true, true) := by decide +kernel

end Spine
