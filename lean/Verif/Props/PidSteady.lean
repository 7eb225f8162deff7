import Verif.Props.Pid
/-!
# C112, C113: integral action and its limits
-/

namespace Spine
open Pid

/-- The settings a series of readings does not change. -/
def SameSettings (s s' : Pid Rat) : Prop := s'.kp = s.kp ∧ s'.ki = s.ki ∧ s'.kd = s.kd ∧ s'.setpoint = s.setpoint ∧ s'.lo = s.lo ∧ s'.hi = s.hi ∧
  s'.onMeasurement = s.onMeasurement

theorem reading_settings {s s' : Pid Rat} {v : Rat} {now : Int} {f : Bool} (h : PID.newReading s v now = .ok (f, s')) : SameSettings s s' := by
  cases f
  · rw [newReading_false h]; exact ⟨rfl, rfl, rfl, rfl, rfl, rfl, rfl⟩
  · rw [newReading_true h]; exact ⟨rfl, rfl, rfl, rfl, rfl, rfl, rfl⟩

/-- What is known after `c` computations from readings of `v`. -/
def Ramp (v d : Rat) (s0 s : Pid Rat) (c : Nat) : Prop :=
  SameSettings s0 s ∧ (1 ≤ c → s.lastReading = v ∧ min s.hi (s.lo + (c - 1 : Rat) * d) ≤ s.cumulative ∧ s.cumulative ≤ s.hi) ∧
    (2 ≤ c → s.cumulative ≤ s.output ∧ s.output ≤ s.hi)

theorem ramp_step {v d : Rat} {s0 s s' : Pid Rat} {c : Nat} {f : Bool} {now : Int} (hl : s0.lo ≤ s0.hi) (hd : 0 ≤ d) (hi : d ≤ s0.ki * (s0.setpoint - v))
    (hp : 0 ≤ s0.kp * (s0.setpoint - v)) (h : Ramp v d s0 s c) (hr : PID.newReading s v now = .ok (f, s')) : Ramp v d s0 s' (c + f.toNat) := by
  obtain ⟨⟨e1, e2, e3, e4, e5, e6, e7⟩, h1, h2⟩ := h
  have hs := reading_settings hr
  have hs' : SameSettings s0 s' := by
    obtain ⟨g1, g2, g3, g4, g5, g6, g7⟩ := hs
    exact ⟨g1.trans e1, g2.trans e2, g3.trans e3, g4.trans e4, g5.trans e5, g6.trans e6, g7.trans e7⟩
  cases f with
  | false =>
    rw [newReading_false hr] at hs' ⊢
    exact ⟨hs', h1, h2⟩
  | true =>
    have hlast : s'.lastReading = v := by rw [newReading_true hr]; rfl
    have hl' : s.lo ≤ s.hi := by rw [e5, e6]; exact hl
    obtain ⟨c1, c2⟩ := C79_saturation hr hl'
    obtain ⟨g1, g2, g3, g4, g5, g6, g7⟩ := hs
    refine ⟨hs', fun _ => ⟨hlast, ?_, ?_⟩, fun hc => ?_⟩
    · rw [g5, g6, c1]
      rcases Nat.eq_zero_or_pos c with rfl | hc
      · refine (min_le_right _ _).trans ?_
        simp
      · obtain ⟨a1, a2, -⟩ := h1 hc
        have hcar : carried s.onMeasurement s.kp s.ki s.setpoint s.cumulative s.lastReading [v] = s.cumulative + s.ki * (s.setpoint - v) := by
          simp [carried, errorSum, a1]
        rw [hcar]
        refine le_trans ?_ (le_max_right _ _)
        refine le_min (min_le_left _ _) ?_
        have hk : d ≤ s.ki * (s.setpoint - v) := by rw [e2, e4]; exact hi
        rcases min_le_iff.mp a2 with h3 | h3
        · refine (min_le_left _ _).trans ?_
          linarith
        · refine (min_le_right _ _).trans ?_
          simp only [Bool.toNat_true, Nat.cast_add, Nat.cast_one]
          linarith
    · rw [g6, c1]; exact max_le hl' (min_le_left _ _)
    · have hc1 : 1 ≤ c := by simpa using hc
      obtain ⟨a1, -, -⟩ := h1 hc1
      have hcum : s'.cumulative ≤ s.hi := by rw [c1]; exact max_le hl' (min_le_left _ _)
      constructor
      · rw [c2, a1, sub_self, mul_zero, sub_zero]
        refine le_trans ?_ (le_max_right _ _)
        refine le_min hcum ?_
        have : 0 ≤ s.kp * (s.setpoint - v) := by rw [e1, e4]; exact hp
        split <;> linarith
      · rw [g6, c2]; exact max_le hl' (min_le_left _ _)

theorem ramp_readings {v d : Rat} {s0 : Pid Rat} (hl : s0.lo ≤ s0.hi) (hd : 0 ≤ d) (hi : d ≤ s0.ki * (s0.setpoint - v)) (hp : 0 ≤ s0.kp * (s0.setpoint - v))
    (rs : List (Int × Rat)) : ∀ {s s' : Pid Rat} {c : Nat} {fs : List Bool}, (∀ r ∈ rs, r.2 = v) → PID.readings s rs = .ok (fs, s') → Ramp v d s0 s c →
    Ramp v d s0 s' (c + fs.count true) := by
  induction rs with
  | nil => intro s s' c fs _ h hr; cases h; simpa using hr
  | cons r rs ih =>
    intro s s' c fs hv h hr
    obtain ⟨now, w⟩ := r
    have hw : w = v := hv (now, w) List.mem_cons_self
    subst hw
    simp only [PID.readings] at h
    obtain ⟨⟨f, s1⟩, h1, h⟩ := res_bind h
    obtain ⟨⟨fs1, s2⟩, h2, h⟩ := res_bind h
    cases h
    have := ih (fun r hr => hv r (List.mem_cons_of_mem _ hr)) h2 (ramp_step hl hd hi hp hr h1)
    rw [List.count_cons]
    have e : c + (fs1.count true + if (f == true) = true then 1 else 0) = c + f.toNat + fs1.count true := by cases f <;> simp; omega
    rw [e]; exact this

/-- **C112** in exact arithmetic, from any state, for both ways of the proportional part: if the reading stays on the side of the setpoint from which the integral
part grows, by at least `d` for each computation, the output is above the lower limit by `d` for each computation but the first, or at the upper limit. -/
theorem C112_ramp {s s' : Pid Rat} {v d : Rat} {rs : List (Int × Rat)} {fs : List Bool} (hl : s.lo ≤ s.hi) (hd : 0 ≤ d) (hi : d ≤ s.ki * (s.setpoint - v))
    (hp : 0 ≤ s.kp * (s.setpoint - v)) (hv : ∀ r ∈ rs, r.2 = v) (h : PID.readings s rs = .ok (fs, s')) (hc : 2 ≤ fs.count true) :
    min s.hi (s.lo + (fs.count true - 1 : Rat) * d) ≤ s'.output ∧ s'.output ≤ s.hi := by
  have h0 : Ramp v d s s 0 := ⟨⟨rfl, rfl, rfl, rfl, rfl, rfl, rfl⟩, fun h => absurd h (by omega), fun h => absurd h (by omega)⟩
  obtain ⟨⟨-, -, -, -, e5, e6, -⟩, h1, h2⟩ := ramp_readings hl hd hi hp rs hv h h0
  rw [Nat.zero_add, e5, e6] at h1
  rw [Nat.zero_add, e6] at h2
  exact ⟨(h1 (by omega)).2.1.trans (h2 hc).1, (h2 hc).2⟩

/-- **C112.** So a lasting error drives the output to its limit, after a number of computations that is known in advance. Missing: single precision, where it is
false (`C112_stalls_counterexample`). -/
theorem C112_limit_partial {s s' : Pid Rat} {v : Rat} {rs : List (Int × Rat)} {fs : List Bool} (hl : s.lo ≤ s.hi) (hi : 0 < s.ki * (s.setpoint - v))
    (hp : 0 ≤ s.kp * (s.setpoint - v)) (hv : ∀ r ∈ rs, r.2 = v) (h : PID.readings s rs = .ok (fs, s')) (hc : 2 ≤ fs.count true)
    (hn : (s.hi - s.lo) / (s.ki * (s.setpoint - v)) ≤ fs.count true - 1) : s'.output = s.hi := by
  obtain ⟨h1, h2⟩ := C112_ramp hl hi.le (le_refl _) hp hv h hc
  refine le_antisymm h2 (le_trans (le_min (le_refl _) ?_) h1)
  rw [div_le_iff₀ hi] at hn
  linarith

/-- The mirror image of a controller. -/
def mirror (s : Pid Rat) : Pid Rat := { s with input := -s.input, output := -s.output, setpoint := -s.setpoint, cumulative := -s.cumulative, lastReading := -s.lastReading, lo := -s.hi, hi := -s.lo }

theorem clamp_mirror {lo hi x : Rat} (h : lo ≤ hi) : clamp (-hi) (-lo) (-x) = -clamp lo hi x := by
  simp only [clamp, Arith.lt, decide_eq_true_eq, neg_lt_neg_iff]
  split_ifs <;> first | rfl | linarith

theorem compute_rat (s : Pid Rat) (now : Int) : s.compute now = { s with
    cumulative := clamp s.lo s.hi (s.cumulative + s.ki * (s.setpoint - s.input) - (cond s.onMeasurement s.kp 0) * (s.input - s.lastReading)),
    output := clamp s.lo s.hi ((cond s.onMeasurement 0 s.kp) * (s.setpoint - s.input) +
      (clamp s.lo s.hi (s.cumulative + s.ki * (s.setpoint - s.input) - (cond s.onMeasurement s.kp 0) * (s.input - s.lastReading)) -
        s.kd * (s.input - s.lastReading))),
    lastReading := s.input, lastTime := now } := by
  rcases s with ⟨kp, ki, kd, r, i, o, sp, lt, c, lr, sa, lo, hi, m⟩
  cases m
  · simp only [compute, Bool.false_eq_true, if_false, cond_false, zero_mul, sub_zero]; rfl
  · simp only [compute, if_true, cond_true, zero_mul]; rfl

theorem mirror_compute {s : Pid Rat} (hl : s.lo ≤ s.hi) (now : Int) : (mirror s).compute now = mirror (s.compute now) := by
  rw [compute_rat, compute_rat]
  simp only [mirror]
  generalize cond s.onMeasurement s.kp 0 = k₁
  generalize cond s.onMeasurement 0 s.kp = k₂
  have e1 : -s.cumulative + s.ki * (-s.setpoint - -s.input) - k₁ * (-s.input - -s.lastReading) =
      -(s.cumulative + s.ki * (s.setpoint - s.input) - k₁ * (s.input - s.lastReading)) := by ring
  rw [e1, clamp_mirror hl]
  generalize clamp s.lo s.hi (s.cumulative + _ - _) = c
  have e2 : k₂ * (-s.setpoint - -s.input) + (-c - s.kd * (-s.input - -s.lastReading)) =
      -(k₂ * (s.setpoint - s.input) + (c - s.kd * (s.input - s.lastReading))) := by ring
  rw [e2, clamp_mirror hl]

theorem mirror_reading {s s' : Pid Rat} {v : Rat} {now : Int} {f : Bool} (hl : s.lo ≤ s.hi) (h : PID.newReading s v now = .ok (f, s')) :
    PID.newReading (mirror s) (-v) now = .ok (f, mirror s') := by
  simp only [PID.newReading, update] at h ⊢
  obtain ⟨d, hd, h⟩ := res_bind h
  obtain ⟨c, hc, h⟩ := res_bind h
  have hd' : msSub now ({ mirror s with input := -v } : Pid Rat).lastTime = .ok d := hd
  have hc' : msGe d ({ mirror s with input := -v } : Pid Rat).sampling = .ok c := hc
  rw [hd', res_bind_ok, hc', res_bind_ok]
  cases c
  · cases h; rfl
  · cases h
    have := mirror_compute (s := { s with input := v }) hl now
    exact congrArg (fun x => Except.ok (true, x)) this

theorem mirror_readings (rs : List (Int × Rat)) : ∀ {s s' : Pid Rat} {fs : List Bool}, s.lo ≤ s.hi → PID.readings s rs = .ok (fs, s') →
    PID.readings (mirror s) (rs.map fun r => (r.1, -r.2)) = .ok (fs, mirror s') := by
  induction rs with
  | nil => intro s s' fs _ h; cases h; rfl
  | cons r rs ih =>
    intro s s' fs hl h
    simp only [PID.readings] at h
    obtain ⟨⟨f, s1⟩, h1, h⟩ := res_bind h
    obtain ⟨⟨fs1, s2⟩, h2, h⟩ := res_bind h
    cases h
    have hl1 : s1.lo ≤ s1.hi := by
      obtain ⟨-, -, -, -, e5, e6, -⟩ := reading_settings h1
      rw [e5, e6]; exact hl
    simp only [List.map_cons, PID.readings, mirror_reading hl h1, res_bind_ok, ih hl1 h2]
    rfl

/-- **C112** on the other side of the setpoint. Missing: as above. -/
theorem C112_lower_partial {s s' : Pid Rat} {v : Rat} {rs : List (Int × Rat)} {fs : List Bool} (hl : s.lo ≤ s.hi) (hi : s.ki * (s.setpoint - v) < 0)
    (hp : s.kp * (s.setpoint - v) ≤ 0) (hv : ∀ r ∈ rs, r.2 = v) (h : PID.readings s rs = .ok (fs, s')) (hc : 2 ≤ fs.count true)
    (hn : (s.hi - s.lo) / -(s.ki * (s.setpoint - v)) ≤ fs.count true - 1) : s'.output = s.lo := by
  have hm := mirror_readings rs hl h
  have e : (mirror s).ki * ((mirror s).setpoint - -v) = -(s.ki * (s.setpoint - v)) := by simp only [mirror]; ring
  have e' : (mirror s).kp * ((mirror s).setpoint - -v) = -(s.kp * (s.setpoint - v)) := by simp only [mirror]; ring
  have := C112_limit_partial (s := mirror s) (v := -v) (by simpa [mirror] using hl) (by rw [e]; linarith) (by rw [e']; linarith)
    (by intro r hr; obtain ⟨q, hq, rfl⟩ := List.mem_map.mp hr; simp [hv q hq]) hm hc (by rw [e]; simpa [mirror, sub_eq_add_neg, add_comm] using hn)
  simpa [mirror] using this

/-- An error of 50 with `Ki = 1` per computation: the upper limit 255 is reached within seven computations. -/
example : (do
    let s : Pid Rat := { kp := 2, ki := 1, kd := 3, reverse := false, input := 0, output := 0, setpoint := 90, lastTime := 0, cumulative := 0, lastReading := 0, sampling := 100, lo := 0, hi := 255, onMeasurement := true }
    let (fs, s') ← PID.readings s [(100, 40), (200, 40), (300, 40), (350, 40), (400, 40), (500, 40), (600, 40), (700, 40)]
    return (fs.count true, s'.output) : Res (Nat × Rat)) = .ok (7, 255) := by decide +kernel

theorem unwinds_upper {s s' : Pid Rat} {v : Rat} {now : Int} (hl : s.lo ≤ s.hi) (hcum : s.cumulative ≤ s.hi) (hp : s.kp * (s.setpoint - v) ≤ 0)
    (hp' : 0 ≤ s.kp * (v - s.lastReading)) (hd' : 0 ≤ s.kd * (v - s.lastReading)) (h : PID.newReading s v now = .ok (true, s')) :
    s'.output ≤ max s.lo (s.hi + s.ki * (s.setpoint - v)) := by
  obtain ⟨c1, c2⟩ := C79_saturation h hl
  have hcar : carried s.onMeasurement s.kp s.ki s.setpoint s.cumulative s.lastReading [v] ≤ s.hi + s.ki * (s.setpoint - v) := by
    simp only [carried, errorSum, List.map_cons, List.map_nil, List.sum_cons, List.sum_nil, List.getLastD_cons]
    split <;> simp <;> linarith
  have hc : s'.cumulative ≤ max s.lo (s.hi + s.ki * (s.setpoint - v)) := by
    rw [c1]; exact max_le_max (le_refl _) ((min_le_right _ _).trans hcar)
  rw [c2]
  refine max_le (le_max_left _ _) ((min_le_right _ _).trans (le_trans ?_ hc))
  split <;> linarith

theorem unwinds_lower {s s' : Pid Rat} {v : Rat} {now : Int} (hl : s.lo ≤ s.hi) (hcum : s.lo ≤ s.cumulative) (hp : 0 ≤ s.kp * (s.setpoint - v))
    (hp' : s.kp * (v - s.lastReading) ≤ 0) (hd' : s.kd * (v - s.lastReading) ≤ 0) (h : PID.newReading s v now = .ok (true, s')) :
    min s.hi (s.lo + s.ki * (s.setpoint - v)) ≤ s'.output := by
  obtain ⟨c1, c2⟩ := C79_saturation h hl
  have hcar : s.lo + s.ki * (s.setpoint - v) ≤ carried s.onMeasurement s.kp s.ki s.setpoint s.cumulative s.lastReading [v] := by
    simp only [carried, errorSum, List.map_cons, List.map_nil, List.sum_cons, List.sum_nil, List.getLastD_cons]
    split <;> simp <;> linarith
  have hc : min s.hi (s.lo + s.ki * (s.setpoint - v)) ≤ s'.cumulative := by
    rw [c1]; exact (min_le_min (le_refl _) hcar).trans (le_max_right _ _)
  rw [c2]
  refine le_max_of_le_right (le_min (min_le_left _ _) (hc.trans ?_))
  split <;> linarith

/-- The error changes its sign with the reading `v`, from the sign that drives the output up: the last reading was on the one side of the setpoint, and this one is on the other side. In a reversed controller
the gains are negative. -/
def TurnsDown (s : Pid Rat) (v : Rat) : Prop :=
  (0 ≤ s.kp ∧ 0 ≤ s.ki ∧ 0 ≤ s.kd ∧ s.lastReading ≤ s.setpoint ∧ s.setpoint ≤ v) ∨ (s.kp ≤ 0 ∧ s.ki ≤ 0 ∧ s.kd ≤ 0 ∧ v ≤ s.setpoint ∧ s.setpoint ≤ s.lastReading)

/-- The error changes its sign with the reading `v`, from the sign that drives the output down. -/
def TurnsUp (s : Pid Rat) (v : Rat) : Prop :=
  (0 ≤ s.kp ∧ 0 ≤ s.ki ∧ 0 ≤ s.kd ∧ v ≤ s.setpoint ∧ s.setpoint ≤ s.lastReading) ∨ (s.kp ≤ 0 ∧ s.ki ≤ 0 ∧ s.kd ≤ 0 ∧ s.lastReading ≤ s.setpoint ∧ s.setpoint ≤ v)

/-- **C113 (partial)**, in exact arithmetic, from any state with the integral within the limits: the first computation whose error has the other sign takes the output away from the limit by at least its
integral part (unless it reaches the other limit), however long the error lasted before. Missing: rounding (`C113_float_partial`, `C113_rounding_counterexample`); changes of the sign because the setpoint is changed
(`C113_setpoint_counterexample`). -/
theorem C113_unwinds_partial {s s' : Pid Rat} {v : Rat} {now : Int} (hl : s.lo ≤ s.hi) (hlo : s.lo ≤ s.cumulative) (hhi : s.cumulative ≤ s.hi) (h : PID.newReading s v now = .ok (true, s')) :
    (TurnsDown s v → s'.output ≤ max s.lo (s.hi - |s.ki * (s.setpoint - v)|)) ∧ (TurnsUp s v → min s.hi (s.lo + |s.ki * (s.setpoint - v)|) ≤ s'.output) := by
  constructor
  · intro ht
    have key : s.kp * (s.setpoint - v) ≤ 0 ∧ s.ki * (s.setpoint - v) ≤ 0 ∧ 0 ≤ s.kp * (v - s.lastReading) ∧ 0 ≤ s.kd * (v - s.lastReading) := by
      rcases ht with ⟨h1, h2, h3, h4, h5⟩ | ⟨h1, h2, h3, h4, h5⟩
      · exact ⟨mul_nonpos_of_nonneg_of_nonpos h1 (by linarith), mul_nonpos_of_nonneg_of_nonpos h2 (by linarith), mul_nonneg h1 (by linarith), mul_nonneg h3 (by linarith)⟩
      · exact ⟨mul_nonpos_of_nonpos_of_nonneg h1 (by linarith), mul_nonpos_of_nonpos_of_nonneg h2 (by linarith), mul_nonneg_of_nonpos_of_nonpos h1 (by linarith), mul_nonneg_of_nonpos_of_nonpos h3 (by linarith)⟩
    rw [abs_of_nonpos key.2.1, sub_neg_eq_add]
    exact unwinds_upper hl hhi key.1 key.2.2.1 key.2.2.2 h
  · intro ht
    have key : 0 ≤ s.kp * (s.setpoint - v) ∧ 0 ≤ s.ki * (s.setpoint - v) ∧ s.kp * (v - s.lastReading) ≤ 0 ∧ s.kd * (v - s.lastReading) ≤ 0 := by
      rcases ht with ⟨h1, h2, h3, h4, h5⟩ | ⟨h1, h2, h3, h4, h5⟩
      · exact ⟨mul_nonneg h1 (by linarith), mul_nonneg h2 (by linarith), mul_nonpos_of_nonneg_of_nonpos h1 (by linarith), mul_nonpos_of_nonneg_of_nonpos h3 (by linarith)⟩
      · exact ⟨mul_nonneg_of_nonpos_of_nonpos h1 (by linarith), mul_nonneg_of_nonpos_of_nonpos h2 (by linarith), mul_nonpos_of_nonpos_of_nonneg h1 (by linarith), mul_nonpos_of_nonpos_of_nonneg h3 (by linarith)⟩
    rw [abs_of_nonneg key.2.1]
    exact unwinds_lower hl hlo key.1 key.2.2.1 key.2.2.2 h

/-- **C113.** The integral part never leaves the limits, whatever the readings, so `C113_unwinds_partial` applies at any time after the first computation. -/
theorem C113_bounded {s s' : Pid Rat} {v : Rat} {now : Int} (hl : s.lo ≤ s.hi) (h : PID.newReading s v now = .ok (true, s')) :
    s.lo ≤ s'.cumulative ∧ s'.cumulative ≤ s.hi := by
  rw [(C79_saturation h hl).1]
  exact ⟨le_max_left _ _, max_le hl (min_le_left _ _)⟩

/-- C113 is false if the error changes its sign because the setpoint is lowered, while the reading falls: from 80 with the setpoint 90, and the output at its limit of 255, to 70 with the setpoint 60; the output stays
at 255, where the integral part is -10. -/
theorem C113_setpoint_counterexample : (do
    let s : Pid Rat := { kp := 2, ki := 1, kd := 0, reverse := false, input := 80, output := 255, setpoint := 90, lastTime := 0, cumulative := 255, lastReading := 80, sampling := 100, lo := 0, hi := 255, onMeasurement := true }
    let (_, s) ← PID.newReading s 80 100
    let (_, s') ← PID.newReading { s with setpoint := 60 } 70 200
    return (s.output, s'.output, s.ki * (60 - 70)) : Res (Rat × Rat × Rat)) = .ok (255, 255, -10) := by decide +kernel

/-- After a thousand, or any number of computations at the limit 255, one reading 10 above the setpoint takes the output down by at least 10: by 10 with its integral part, 20 with its proportional part and 30
with its derivative part. -/
example : let s : Pid Rat := { kp := 2, ki := 1, kd := 3, reverse := false, input := 0, output := 255, setpoint := 90, lastTime := 0, cumulative := 255, lastReading := 90, sampling := 100, lo := 0, hi := 255, onMeasurement := false }
    TurnsDown s 100 ∧ (PID.newReading s 100 1000).map (fun r => (r.1, r.2.output)) = .ok (true, 195) :=
  ⟨Or.inl (by decide +kernel), by decide +kernel⟩

/-- A reversed controller at its lower limit. -/
example : let s : Pid Rat := { kp := -2, ki := -1, kd := 0, reverse := true, input := 0, output := 0, setpoint := 90, lastTime := 0, cumulative := 0, lastReading := 90, sampling := 100, lo := 0, hi := 255, onMeasurement := true }
    TurnsUp s 100 ∧ (PID.newReading s 100 1000).map (fun r => (r.1, r.2.output)) = .ok (true, 30) :=
  ⟨Or.inr (by decide +kernel), by decide +kernel⟩

/-! ## C112 in single precision -/

/-- Readings of 0, one each 100 ms from time `t` on. -/
def zeros (t : Int) : Nat → List (PID.Op Fl)
  | 0 => []
  | n + 1 => .reading (Fl.ofRat 0) t :: zeros (t + 100) n

/-- The default controller, after 34 readings of 0 with the setpoint 100. -/
def wound : Pid Fl :=
  { kp := Fl.ofRat 20, ki := .num false (1006633 / 33554432), kd := Fl.ofRat 1, reverse := false, input := Fl.ofRat 0, output := Fl.ofRat 102, setpoint := Fl.ofRat 100, lastTime := 4300,
    cumulative := Fl.ofRat 102, lastReading := Fl.ofRat 0, sampling := 100, lo := Fl.ofRat 0, hi := Fl.ofRat 255, onMeasurement := true }

theorem wound_reached : (do
    let s ← PID.create (PidConfig.default : PidConfig Fl) .debug 1000
    PID.run PidConfig.default .debug s ([.start, .setpoint (Fl.ofRat 100)] ++ zeros 1000 34) : Res (Pid Fl)) = .ok wound := by decide +kernel

theorem wound_computes (t now : Int) (sp : Rat) (hsp : sp = 1 / 2 ^ 16) :
    ({ wound with setpoint := Fl.ofRat sp, lastTime := t } : Pid Fl).compute now = { wound with setpoint := Fl.ofRat sp, lastTime := now } := by
  subst hsp
  have h : ∀ t now : Int, ∃ c o : Fl, ({ wound with setpoint := Fl.ofRat (1 / 2 ^ 16), lastTime := t } : Pid Fl).compute now =
      { wound with setpoint := Fl.ofRat (1 / 2 ^ 16), lastTime := now, cumulative := c, output := o } ∧
      c = (({ wound with setpoint := Fl.ofRat (1 / 2 ^ 16) } : Pid Fl).compute 0).cumulative ∧
      o = (({ wound with setpoint := Fl.ofRat (1 / 2 ^ 16) } : Pid Fl).compute 0).output := fun _ _ => ⟨_, _, rfl, rfl, rfl⟩
  obtain ⟨c, o, h1, h2, h3⟩ := h t now
  have e1 : (({ wound with setpoint := Fl.ofRat (1 / 2 ^ 16) } : Pid Fl).compute 0).cumulative = Fl.ofRat 102 := by decide +kernel
  have e2 : (({ wound with setpoint := Fl.ofRat (1 / 2 ^ 16) } : Pid Fl).compute 0).output = Fl.ofRat 102 := by decide +kernel
  rw [h1, h2, h3, e1, e2]
  rfl

/-- **C112** is false in single precision: for the default controller at an output of 102, a setpoint that is 2^-16 above all readings never changes the output,
however many computations are made. -/
theorem C112_stalls_counterexample (rs : List (Int × Fl)) : ∀ {t : Int} {fs : List Bool} {s' : Pid Fl}, (∀ r ∈ rs, r.2 = Fl.ofRat 0) →
    PID.readings { wound with setpoint := Fl.ofRat (1 / 2 ^ 16), lastTime := t } rs = .ok (fs, s') → s'.output = Fl.ofRat 102 := by
  induction rs with
  | nil => intro t fs s' _ h; cases h; rfl
  | cons r rs ih =>
    intro t fs s' hv h
    obtain ⟨now, w⟩ := r
    have hw : w = Fl.ofRat 0 := hv (now, w) List.mem_cons_self
    subst hw
    simp only [PID.readings] at h
    obtain ⟨⟨f, s1⟩, h1, h⟩ := res_bind h
    obtain ⟨⟨fs1, s2⟩, h2, h⟩ := res_bind h
    cases h
    have hrest : ∀ r ∈ rs, r.2 = Fl.ofRat 0 := fun r hr => hv r (List.mem_cons_of_mem _ hr)
    cases f
    · rw [newReading_false h1] at h2
      exact ih hrest h2
    · have := newReading_true h1
      have e := wound_computes t now (1 / 2 ^ 16) rfl
      exact ih hrest (t := now) (this.trans e ▸ h2)

/-- Readings for the statement above: three computations. -/
example : (PID.readings { wound with setpoint := Fl.ofRat (1 / 2 ^ 16) } [(4400, Fl.ofRat 0), (4500, Fl.ofRat 0), (4600, Fl.ofRat 0)]).map Prod.fst =
    .ok [true, true, true] := by decide +kernel

end Spine
