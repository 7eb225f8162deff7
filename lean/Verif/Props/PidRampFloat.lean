import Verif.Props.PidSteady
import Verif.Props.Retuning
import Verif.Props.FilterAccuracy
/-!
# C112 with floats: a lasting error that is not lost in the sum drives the output to its limit

`C112_stalls_counterexample` shows that an integral step far below the resolution of the sum is lost. Here: a step of at least 2^-22 of the limits is not.
-/

namespace Spine
open Pid F32

namespace PID

/-- Specification: with readings of `v` the integral part gains `q` with each computation, where `q` is at least 2^-22 of the limits, and the proportional part is not negative. -/
structure Drives (s : Pid Fl) (v : Fl) (M q : Rat) : Prop where
  kp : s.kp.fin = true ∧ s.kp.Ok
  kd : s.kd.fin = true ∧ s.kd.Ok
  lo : s.lo.fin = true ∧ s.lo.Ok
  hi : s.hi.fin = true ∧ s.hi.Ok
  order : s.lo.val ≤ s.hi.val
  low : -M ≤ s.lo.val
  high : s.hi.val ≤ M
  value : v.fin = true
  step : (Fl.mul s.ki (Fl.sub s.setpoint v)).fin = true ∧ (Fl.mul s.ki (Fl.sub s.setpoint v)).Ok ∧ (Fl.mul s.ki (Fl.sub s.setpoint v)).val = q
  prop : (Fl.mul s.kp (Fl.sub s.setpoint v)).fin = true ∧ (Fl.mul s.kp (Fl.sub s.setpoint v)).Ok ∧ 0 ≤ (Fl.mul s.kp (Fl.sub s.setpoint v)).val ∧
    (Fl.mul s.kp (Fl.sub s.setpoint v)).val ≤ 2 ^ 100
  pos : 0 < q
  large : M ≤ 2 ^ 22 * q
  small : q ≤ 2 ^ 100
  bound : M ≤ 2 ^ 100

/-- Specification: the last computation was from the reading `v`, and left a finite sum within the limits. -/
structure Within (s : Pid Fl) (v : Fl) : Prop where
  last : s.lastReading = v
  fin : s.cumulative.fin = true
  ok : s.cumulative.Ok
  lo : s.lo.val ≤ s.cumulative.val
  hi : s.cumulative.val ≤ s.hi.val

theorem rnd_sum_lt {x y : Rat} (hx : rnd x = x) (hy : rnd y = y) (h : |x + y| ≤ 2 ^ 101) : |rnd (x + y)| < pow2 128 := by
  have h1 := FilterAccuracy.rnd_diff hx (y := -y) (by rw [rnd_neg, hy])
  rw [sub_neg_eq_add] at h1
  have h2 : |rnd (x + y)| ≤ |rnd (x + y) - (x + y)| + |x + y| := by
    have := abs_add_le (rnd (x + y) - (x + y)) (x + y)
    rwa [sub_add_cancel] at this
  have h3 : pow2 128 = 2 ^ 128 := pow2_nat 128
  rw [h3]
  have h4 : |x + y| / 2 ^ 24 ≤ 2 ^ 101 := by
    refine le_trans (div_le_self (abs_nonneg _) (by norm_num)) h
  refine lt_of_le_of_lt (h2.trans (add_le_add (h1.trans h4) h)) (by norm_num)

/-- Clamping a finite number above the lower limit gives the smaller of it and the upper limit. -/
theorem clamp_above {lo hi x : Fl} (h1 : lo.fin = true) (h2 : hi.fin = true ∧ hi.Ok) (h3 : x.fin = true ∧ x.Ok) (h4 : lo.val ≤ x.val) :
    (clamp lo hi x).fin = true ∧ (clamp lo hi x).Ok ∧ (clamp lo hi x).val = min hi.val x.val := by
  unfold clamp
  by_cases h : Arith.lt hi x = true
  · rw [if_pos h]
    exact ⟨h2.1, h2.2, (min_eq_left ((Fl.lt_iff h2.1 h3.1).mp h).le).symm⟩
  · have h5 : x.val ≤ hi.val := not_lt.mp fun h' => h ((Fl.lt_iff h2.1 h3.1).mpr h')
    rw [if_neg h, if_neg (show ¬ Arith.lt x lo = true from fun h' => absurd ((Fl.lt_iff h3.1 h1).mp h') (not_lt.mpr h4))]
    exact ⟨h3.1, h3.2, (min_eq_right h5).symm⟩

theorem compute_drives {s : Pid Fl} {v : Fl} {M q : Rat} (hd : Drives s v M q) (hw : Within s v) (hv : s.input = v) (now : Int) :
    Within (s.compute now) v ∧ min s.hi.val (s.cumulative.val + q / 2) ≤ (s.compute now).cumulative.val ∧
      ((s.compute now).cumulative.val = s.hi.val → (s.compute now).output.val = s.hi.val) := by
  obtain ⟨⟨p1, p2⟩, ⟨d1, d2⟩, ⟨l1, l2⟩, hi, ord, low, high, fv, ⟨i1, i2, i3⟩, ⟨w1, w2, w3, w4⟩, pos, large, small, bound⟩ := hd
  obtain ⟨h1, h2, h3, h4, h5⟩ := hw
  obtain ⟨kp, ki, kd, r, i, out, sp, lt, cu, inp, sa, lo, hi', om⟩ := s
  simp only at p1 p2 d1 d2 l1 l2 hi ord low high i1 i2 i3 w1 w2 w3 w4 h1 h2 h3 h4 h5 hv ⊢
  subst hv h1
  have z := sub_self_zero fv
  have zo : (Fl.sub inp inp).Ok := Fl.sub_ok _ _
  have mp := mul_zero_val p1 p2 z.1 zo z.2
  have md := mul_zero_val d1 d2 z.1 zo z.2
  generalize hp : Fl.mul ki (Fl.sub sp inp) = p at i1 i2 i3
  generalize hw : Fl.mul kp (Fl.sub sp inp) = w at w1 w2 w3 w4
  have b1 : |cu.val + p.val| ≤ M + q := by
    rw [abs_le]; constructor <;> linarith
  have b2 : M + q ≤ 2 ^ 101 := by
    have : (2 : Rat) ^ 101 = 2 ^ 100 + 2 ^ 100 := by norm_num
    linarith
  have c1 := Fl.add_val h2 i1 (rnd_sum_lt h3.rnd_val i2.rnd_val (b1.trans b2))
  have c1o : (Fl.add cu p).Ok := Fl.add_ok _ _
  have err : cu.val + q / 2 ≤ (Fl.add cu p).val := by
    have e := FilterAccuracy.rnd_diff h3.rnd_val (y := -p.val) (by rw [rnd_neg, i2.rnd_val])
    rw [sub_neg_eq_add] at e
    have e' : |cu.val + p.val| / 2 ^ 24 ≤ q / 2 := by
      rw [div_le_iff₀ (by norm_num)]
      refine b1.trans ?_
      have : q / 2 * 2 ^ 24 = 2 ^ 22 * q + 2 ^ 22 * q := by ring
      rw [this]
      linarith
    have := (abs_le.mp (e.trans e')).1
    rw [c1.2]
    linarith
  have fz : (fzero : Fl).fin = true ∧ (fzero : Fl).val = 0 ∧ (fzero : Fl).Ok := ⟨by decide +kernel, by decide +kernel, Fl.ofRat_ok 0⟩
  -- the sum before clamping, and the proportional part of the output
  have key : ∀ (c o : Fl), c.fin = true → c.Ok → c.val = (Fl.add cu p).val → o.fin = true → o.Ok → 0 ≤ o.val → o.val ≤ 2 ^ 100 →
      ((clamp lo hi' c).fin = true ∧ (clamp lo hi' c).Ok ∧ lo.val ≤ (clamp lo hi' c).val ∧ (clamp lo hi' c).val ≤ hi'.val) ∧
      min hi'.val (cu.val + q / 2) ≤ (clamp lo hi' c).val ∧
      ((clamp lo hi' c).val = hi'.val → (clamp lo hi' (Fl.add o (Fl.sub (clamp lo hi' c) (Fl.mul kd (Fl.sub inp inp))))).val = hi'.val) := by
    intro c o cf co cv of oo o0 o1
    have hc : lo.val ≤ c.val := by rw [cv]; linarith
    obtain ⟨k1, k2, k3⟩ := clamp_above l1 hi ⟨cf, co⟩ hc
    generalize clamp lo hi' c = d at k1 k2 k3
    have k4 : lo.val ≤ d.val := by rw [k3]; exact le_min ord hc
    have k5 : d.val ≤ hi'.val := by rw [k3]; exact min_le_left _ _
    refine ⟨⟨k1, k2, k4, k5⟩, by rw [k3, cv]; exact min_le_min le_rfl err, fun he => ?_⟩
    have s1 := sub_zero_val k1 k2 md.1 md.2
    have s1o : (Fl.sub d (Fl.mul kd (Fl.sub inp inp))).Ok := Fl.sub_ok _ _
    generalize Fl.sub d (Fl.mul kd (Fl.sub inp inp)) = x at s1 s1o
    have xv : x.val = hi'.val := s1.2.trans he
    have b3 : |o.val + x.val| ≤ 2 ^ 101 := by
      have : (2 : Rat) ^ 101 = 2 ^ 100 + 2 ^ 100 := by norm_num
      rw [xv, abs_le]; constructor <;> linarith
    have a := Fl.add_val of s1.1 (rnd_sum_lt oo.rnd_val s1o.rnd_val b3)
    have a1 : hi'.val ≤ (Fl.add o x).val := by
      rw [a.2, ← hi.2.rnd_val]
      refine rnd_mono ?_
      rw [xv]; linarith
    obtain ⟨-, -, k⟩ := clamp_above l1 hi ⟨a.1, Fl.add_ok _ _⟩ (ord.trans a1)
    rw [k, min_eq_left a1]
  cases om
  · obtain ⟨⟨g1, g2, g3, g4⟩, g5, g6⟩ := key (Fl.add cu p) w c1.1 c1o rfl w1 w2 w3 w4
    rw [← hp, ← hw] at *
    exact ⟨⟨rfl, g1, g2, g3, g4⟩, g5, g6⟩
  · have c2 := sub_zero_val c1.1 c1o mp.1 mp.2
    obtain ⟨⟨g1, g2, g3, g4⟩, g5, g6⟩ := key (Fl.sub (Fl.add cu p) (Fl.mul kp (Fl.sub inp inp))) fzero c2.1 (Fl.sub_ok _ _) c2.2 fz.1 fz.2.2 fz.2.1.ge (by rw [fz.2.1]; norm_num)
    rw [← hp] at *
    exact ⟨⟨rfl, g1, g2, g3, g4⟩, g5, g6⟩

/-- **C112** in single precision, for both ways of the proportional part: readings of the same value, with an integral step `q` that is at least 2^-22 of the limits, raise the sum by at least half
that step with each computation, and once this makes up for the distance to the upper limit, the output is at the limit. Missing: smaller steps, for which it is
false (`C112_stalls_counterexample`). -/
theorem C112_float_partial {v : Fl} {M q : Rat} (rs : List (Int × Fl)) : ∀ {s s' : Pid Fl} {fs : List Bool}, Drives s v M q → Within s v → (∀ r ∈ rs, r.2 = v) →
    PID.readings s rs = .ok (fs, s') → Within s' v ∧ s'.hi = s.hi ∧ min s.hi.val (s.cumulative.val + fs.count true * (q / 2)) ≤ s'.cumulative.val ∧
      (1 ≤ fs.count true → s.hi.val - s.cumulative.val ≤ fs.count true * (q / 2) → s'.output.val = s.hi.val) := by
  induction rs with
  | nil =>
    intro s s' fs hd hw _ h
    cases h
    exact ⟨hw, rfl, by simp, fun h => absurd h (by simp)⟩
  | cons r rs ih =>
    intro s s' fs hd hw hv h
    obtain ⟨now, u⟩ := r
    obtain rfl : u = v := hv (now, u) List.mem_cons_self
    simp only [PID.readings] at h
    obtain ⟨⟨f, s1⟩, h1, h⟩ := res_bind h
    obtain ⟨⟨fs1, s2⟩, h2, h⟩ := res_bind h
    cases h
    have hv' : ∀ r ∈ rs, r.2 = u := fun r hr => hv r (List.mem_cons_of_mem _ hr)
    have hd0 : Drives { s with input := u } u M q :=
      ⟨hd.kp, hd.kd, hd.lo, hd.hi, hd.order, hd.low, hd.high, hd.value, hd.step, hd.prop, hd.pos, hd.large, hd.small, hd.bound⟩
    have hw0 : Within { s with input := u } u := ⟨hw.last, hw.fin, hw.ok, hw.lo, hw.hi⟩
    cases f with
    | false =>
      rw [newReading_false h1] at h2
      have := ih hd0 hw0 hv' h2
      simpa using this
    | true =>
      rw [newReading_true h1] at h2
      obtain ⟨a1, a2, a3⟩ := compute_drives hd0 hw0 rfl now
      have hd1 : Drives (({ s with input := u } : Pid Fl).compute now) u M q :=
        ⟨hd.kp, hd.kd, hd.lo, hd.hi, hd.order, hd.low, hd.high, hd.value, hd.step, hd.prop, hd.pos, hd.large, hd.small, hd.bound⟩
      obtain ⟨b1, b2, b3, b4⟩ := ih hd1 a1 hv' h2
      have eh : (({ s with input := u } : Pid Fl).compute now).hi = s.hi := rfl
      rw [eh] at b2 b3 b4
      simp only at a2 a3
      have hn : (0 : Rat) ≤ (fs1.count true : Rat) * (q / 2) := mul_nonneg (Nat.cast_nonneg _) (by linarith [hd.pos])
      have hcount : (((true :: fs1).count true : Nat) : Rat) * (q / 2) = (fs1.count true : Rat) * (q / 2) + q / 2 := by
        rw [List.count_cons_self]; push_cast; ring
      rw [hcount]
      refine ⟨b1, b2, ?_, fun _ hfar => ?_⟩
      · refine le_trans ?_ b3
        refine le_min (min_le_left _ _) ?_
        rcases min_le_iff.mp a2 with h | h
        · exact (min_le_left _ _).trans (by linarith)
        · exact (min_le_right _ _).trans (by linarith)
      · rcases Nat.eq_zero_or_pos (fs1.count true) with h0 | h0
        · -- no computation after this one: nothing but the input is written
          have hc : s.hi.val ≤ (({ s with input := u } : Pid Fl).compute now).cumulative.val := by
            refine le_trans (le_min le_rfl ?_) a2
            rw [h0] at hfar
            push_cast at hfar
            linarith
          have ho := a3 (le_antisymm a1.hi hc)
          have same : ∀ (rs : List (Int × Fl)) {s s' : Pid Fl} {fs : List Bool}, fs.count true = 0 → PID.readings s rs = .ok (fs, s') → s'.output = s.output := by
            intro rs
            induction rs with
            | nil => intro s s' fs _ h; cases h; rfl
            | cons r rs ih =>
              intro s s' fs h0 h
              simp only [PID.readings] at h
              obtain ⟨⟨f, t1⟩, g1, h⟩ := res_bind h
              obtain ⟨⟨fs1, t2⟩, g2, h⟩ := res_bind h
              cases h
              cases f with
              | true => simp at h0
              | false =>
                rw [ih (by simpa using h0) g2, newReading_false g1]
          rw [same rs h0 h2]
          exact ho
        · refine b4 h0 ?_
          rcases min_le_iff.mp a2 with h | h
          · linarith
          · linarith

/-! ## The lower limit -/

/-- Specification: with readings of `v` the integral part loses `q` with each computation, where `q` is at least 2^-22 of the limits, and the proportional part is not positive. -/
structure DrivesDown (s : Pid Fl) (v : Fl) (M q : Rat) : Prop where
  kp : s.kp.fin = true ∧ s.kp.Ok
  kd : s.kd.fin = true ∧ s.kd.Ok
  lo : s.lo.fin = true ∧ s.lo.Ok
  hi : s.hi.fin = true ∧ s.hi.Ok
  order : s.lo.val ≤ s.hi.val
  low : -M ≤ s.lo.val
  high : s.hi.val ≤ M
  value : v.fin = true
  step : (Fl.mul s.ki (Fl.sub s.setpoint v)).fin = true ∧ (Fl.mul s.ki (Fl.sub s.setpoint v)).Ok ∧ (Fl.mul s.ki (Fl.sub s.setpoint v)).val = -q
  prop : (Fl.mul s.kp (Fl.sub s.setpoint v)).fin = true ∧ (Fl.mul s.kp (Fl.sub s.setpoint v)).Ok ∧ (Fl.mul s.kp (Fl.sub s.setpoint v)).val ≤ 0 ∧
    -2 ^ 100 ≤ (Fl.mul s.kp (Fl.sub s.setpoint v)).val
  pos : 0 < q
  large : M ≤ 2 ^ 22 * q
  small : q ≤ 2 ^ 100
  bound : M ≤ 2 ^ 100

/-- Clamping a finite number below the upper limit gives the larger of it and the lower limit. -/
theorem clamp_below {lo hi x : Fl} (h1 : hi.fin = true) (h2 : lo.fin = true ∧ lo.Ok) (h3 : x.fin = true ∧ x.Ok) (h4 : x.val ≤ hi.val) :
    (clamp lo hi x).fin = true ∧ (clamp lo hi x).Ok ∧ (clamp lo hi x).val = max lo.val x.val := by
  unfold clamp
  rw [if_neg (show ¬ Arith.lt hi x = true from fun h' => absurd ((Fl.lt_iff h1 h3.1).mp h') (not_lt.mpr h4))]
  by_cases h : Arith.lt x lo = true
  · rw [if_pos h]
    exact ⟨h2.1, h2.2, (max_eq_left ((Fl.lt_iff h3.1 h2.1).mp h).le).symm⟩
  · have h5 : lo.val ≤ x.val := not_lt.mp fun h' => h ((Fl.lt_iff h3.1 h2.1).mpr h')
    rw [if_neg h]
    exact ⟨h3.1, h3.2, (max_eq_right h5).symm⟩

theorem compute_drivesDown {s : Pid Fl} {v : Fl} {M q : Rat} (hd : DrivesDown s v M q) (hw : Within s v) (hv : s.input = v) (now : Int) :
    Within (s.compute now) v ∧ (s.compute now).cumulative.val ≤ max s.lo.val (s.cumulative.val - q / 2) ∧
      ((s.compute now).cumulative.val = s.lo.val → (s.compute now).output.val = s.lo.val) := by
  obtain ⟨⟨p1, p2⟩, ⟨d1, d2⟩, ⟨l1, l2⟩, hi, ord, low, high, fv, ⟨i1, i2, i3⟩, ⟨w1, w2, w3, w4⟩, pos, large, small, bound⟩ := hd
  obtain ⟨h1, h2, h3, h4, h5⟩ := hw
  obtain ⟨kp, ki, kd, r, i, out, sp, lt, cu, inp, sa, lo, hi', om⟩ := s
  simp only at p1 p2 d1 d2 l1 l2 hi ord low high i1 i2 i3 w1 w2 w3 w4 h1 h2 h3 h4 h5 hv ⊢
  subst hv h1
  have z := sub_self_zero fv
  have zo : (Fl.sub inp inp).Ok := Fl.sub_ok _ _
  have mp := mul_zero_val p1 p2 z.1 zo z.2
  have md := mul_zero_val d1 d2 z.1 zo z.2
  generalize hp : Fl.mul ki (Fl.sub sp inp) = p at i1 i2 i3
  generalize hw : Fl.mul kp (Fl.sub sp inp) = w at w1 w2 w3 w4
  have b1 : |cu.val + p.val| ≤ M + q := by
    rw [abs_le]; constructor <;> linarith
  have b2 : M + q ≤ 2 ^ 101 := by
    have : (2 : Rat) ^ 101 = 2 ^ 100 + 2 ^ 100 := by norm_num
    linarith
  have c1 := Fl.add_val h2 i1 (rnd_sum_lt h3.rnd_val i2.rnd_val (b1.trans b2))
  have c1o : (Fl.add cu p).Ok := Fl.add_ok _ _
  have err : (Fl.add cu p).val ≤ cu.val - q / 2 := by
    have e := FilterAccuracy.rnd_diff h3.rnd_val (y := -p.val) (by rw [rnd_neg, i2.rnd_val])
    rw [sub_neg_eq_add] at e
    have e' : |cu.val + p.val| / 2 ^ 24 ≤ q / 2 := by
      rw [div_le_iff₀ (by norm_num)]
      refine b1.trans ?_
      have : q / 2 * 2 ^ 24 = 2 ^ 22 * q + 2 ^ 22 * q := by ring
      rw [this]
      linarith
    have := (abs_le.mp (e.trans e')).2
    rw [c1.2]
    linarith
  have fz : (fzero : Fl).fin = true ∧ (fzero : Fl).val = 0 ∧ (fzero : Fl).Ok := ⟨by decide +kernel, by decide +kernel, Fl.ofRat_ok 0⟩
  -- the sum before clamping, and the proportional part of the output
  have key : ∀ (c o : Fl), c.fin = true → c.Ok → c.val = (Fl.add cu p).val → o.fin = true → o.Ok → o.val ≤ 0 → -2 ^ 100 ≤ o.val →
      ((clamp lo hi' c).fin = true ∧ (clamp lo hi' c).Ok ∧ lo.val ≤ (clamp lo hi' c).val ∧ (clamp lo hi' c).val ≤ hi'.val) ∧
      (clamp lo hi' c).val ≤ max lo.val (cu.val - q / 2) ∧
      ((clamp lo hi' c).val = lo.val → (clamp lo hi' (Fl.add o (Fl.sub (clamp lo hi' c) (Fl.mul kd (Fl.sub inp inp))))).val = lo.val) := by
    intro c o cf co cv of oo o0 o1
    have hc : c.val ≤ hi'.val := by rw [cv]; linarith
    obtain ⟨k1, k2, k3⟩ := clamp_below hi.1 ⟨l1, l2⟩ ⟨cf, co⟩ hc
    generalize clamp lo hi' c = d at k1 k2 k3
    have k4 : lo.val ≤ d.val := by rw [k3]; exact le_max_left _ _
    have k5 : d.val ≤ hi'.val := by rw [k3]; exact max_le ord hc
    refine ⟨⟨k1, k2, k4, k5⟩, by rw [k3, cv]; exact max_le_max le_rfl err, fun he => ?_⟩
    have s1 := sub_zero_val k1 k2 md.1 md.2
    have s1o : (Fl.sub d (Fl.mul kd (Fl.sub inp inp))).Ok := Fl.sub_ok _ _
    generalize Fl.sub d (Fl.mul kd (Fl.sub inp inp)) = x at s1 s1o
    have xv : x.val = lo.val := s1.2.trans he
    have b3 : |o.val + x.val| ≤ 2 ^ 101 := by
      have : (2 : Rat) ^ 101 = 2 ^ 100 + 2 ^ 100 := by norm_num
      rw [xv, abs_le]; constructor <;> linarith
    have a := Fl.add_val of s1.1 (rnd_sum_lt oo.rnd_val s1o.rnd_val b3)
    have a1 : (Fl.add o x).val ≤ lo.val := by
      rw [a.2, ← l2.rnd_val]
      refine rnd_mono ?_
      rw [xv]; linarith
    obtain ⟨-, -, k⟩ := clamp_below hi.1 ⟨l1, l2⟩ ⟨a.1, Fl.add_ok _ _⟩ (a1.trans ord)
    rw [k, max_eq_left a1]
  cases om
  · obtain ⟨⟨g1, g2, g3, g4⟩, g5, g6⟩ := key (Fl.add cu p) w c1.1 c1o rfl w1 w2 w3 w4
    rw [← hp, ← hw] at *
    exact ⟨⟨rfl, g1, g2, g3, g4⟩, g5, g6⟩
  · have c2 := sub_zero_val c1.1 c1o mp.1 mp.2
    obtain ⟨⟨g1, g2, g3, g4⟩, g5, g6⟩ := key (Fl.sub (Fl.add cu p) (Fl.mul kp (Fl.sub inp inp))) fzero c2.1 (Fl.sub_ok _ _) c2.2 fz.1 fz.2.2 fz.2.1.le (by rw [fz.2.1]; norm_num)
    rw [← hp] at *
    exact ⟨⟨rfl, g1, g2, g3, g4⟩, g5, g6⟩

/-- **C112** in single precision, on the other side of the setpoint: readings of the same value, with an integral step `q` that is at least 2^-22 of the limits, lower the sum by at least half
that step with each computation, and once this makes up for the distance to the lower limit, the output is at the limit. Missing: smaller steps, for which it is
false (`C112_stalls_counterexample`). -/
theorem C112_float_lower_partial {v : Fl} {M q : Rat} (rs : List (Int × Fl)) : ∀ {s s' : Pid Fl} {fs : List Bool}, DrivesDown s v M q → Within s v → (∀ r ∈ rs, r.2 = v) →
    PID.readings s rs = .ok (fs, s') → Within s' v ∧ s'.lo = s.lo ∧ s'.cumulative.val ≤ max s.lo.val (s.cumulative.val - fs.count true * (q / 2)) ∧
      (1 ≤ fs.count true → s.cumulative.val - s.lo.val ≤ fs.count true * (q / 2) → s'.output.val = s.lo.val) := by
  induction rs with
  | nil =>
    intro s s' fs hd hw _ h
    cases h
    exact ⟨hw, rfl, by simp, fun h => absurd h (by simp)⟩
  | cons r rs ih =>
    intro s s' fs hd hw hv h
    obtain ⟨now, u⟩ := r
    obtain rfl : u = v := hv (now, u) List.mem_cons_self
    simp only [PID.readings] at h
    obtain ⟨⟨f, s1⟩, h1, h⟩ := res_bind h
    obtain ⟨⟨fs1, s2⟩, h2, h⟩ := res_bind h
    cases h
    have hv' : ∀ r ∈ rs, r.2 = u := fun r hr => hv r (List.mem_cons_of_mem _ hr)
    have hd0 : DrivesDown { s with input := u } u M q :=
      ⟨hd.kp, hd.kd, hd.lo, hd.hi, hd.order, hd.low, hd.high, hd.value, hd.step, hd.prop, hd.pos, hd.large, hd.small, hd.bound⟩
    have hw0 : Within { s with input := u } u := ⟨hw.last, hw.fin, hw.ok, hw.lo, hw.hi⟩
    cases f with
    | false =>
      rw [newReading_false h1] at h2
      have := ih hd0 hw0 hv' h2
      simpa using this
    | true =>
      rw [newReading_true h1] at h2
      obtain ⟨a1, a2, a3⟩ := compute_drivesDown hd0 hw0 rfl now
      have hd1 : DrivesDown (({ s with input := u } : Pid Fl).compute now) u M q :=
        ⟨hd.kp, hd.kd, hd.lo, hd.hi, hd.order, hd.low, hd.high, hd.value, hd.step, hd.prop, hd.pos, hd.large, hd.small, hd.bound⟩
      obtain ⟨b1, b2, b3, b4⟩ := ih hd1 a1 hv' h2
      have eh : (({ s with input := u } : Pid Fl).compute now).lo = s.lo := rfl
      rw [eh] at b2 b3 b4
      simp only at a2 a3
      have hn : (0 : Rat) ≤ (fs1.count true : Rat) * (q / 2) := mul_nonneg (Nat.cast_nonneg _) (by linarith [hd.pos])
      have hcount : (((true :: fs1).count true : Nat) : Rat) * (q / 2) = (fs1.count true : Rat) * (q / 2) + q / 2 := by
        rw [List.count_cons_self]; push_cast; ring
      rw [hcount]
      refine ⟨b1, b2, ?_, fun _ hfar => ?_⟩
      · refine le_trans b3 ?_
        refine max_le (le_max_left _ _) ?_
        rcases le_max_iff.mp a2 with h | h
        · exact le_max_of_le_left (by linarith)
        · exact le_max_of_le_right (by linarith)
      · rcases Nat.eq_zero_or_pos (fs1.count true) with h0 | h0
        · -- no computation after this one: nothing but the input is written
          have hc : (({ s with input := u } : Pid Fl).compute now).cumulative.val ≤ s.lo.val := by
            refine le_trans a2 (max_le le_rfl ?_)
            rw [h0] at hfar
            push_cast at hfar
            linarith
          have ho := a3 (le_antisymm hc a1.lo)
          have same : ∀ (rs : List (Int × Fl)) {s s' : Pid Fl} {fs : List Bool}, fs.count true = 0 → PID.readings s rs = .ok (fs, s') → s'.output = s.output := by
            intro rs
            induction rs with
            | nil => intro s s' fs _ h; cases h; rfl
            | cons r rs ih =>
              intro s s' fs h0 h
              simp only [PID.readings] at h
              obtain ⟨⟨f, t1⟩, g1, h⟩ := res_bind h
              obtain ⟨⟨fs1, t2⟩, g2, h⟩ := res_bind h
              cases h
              cases f with
              | true => simp at h0
              | false =>
                rw [ih (by simpa using h0) g2, newReading_false g1]
          rw [same rs h0 h2]
          exact ho
        · refine b4 h0 ?_
          rcases le_max_iff.mp a2 with h | h
          · linarith
          · linarith

/-! ## Concrete cases -/

/-- The default controller at an output of 102, with a setpoint one sixteenth above the readings: the assumptions hold, where a setpoint 2^-16 above them never moves the output. -/
example : Drives { wound with setpoint := Fl.ofRat (1 / 16) } (Fl.ofRat 0) 255 (1006633 / 2 ^ 29) ∧ Within { wound with setpoint := Fl.ofRat (1 / 16) } (Fl.ofRat 0) := by
  refine ⟨⟨⟨by decide +kernel, Fl.ofRat_ok 20⟩, ⟨by decide +kernel, Fl.ofRat_ok 1⟩, ⟨by decide +kernel, Fl.ofRat_ok 0⟩, ⟨by decide +kernel, Fl.ofRat_ok 255⟩, by decide +kernel, by decide +kernel,
    by decide +kernel, by decide +kernel, ⟨by decide +kernel, Fl.mul_ok ?_ (Fl.sub_ok _ _), by decide +kernel⟩, ⟨by decide +kernel, Fl.mul_ok (Fl.ofRat_ok 20) (Fl.sub_ok _ _), by decide +kernel, by decide +kernel⟩,
    by norm_num, by norm_num, by norm_num, by norm_num⟩, ⟨rfl, by decide +kernel, Fl.ofRat_ok 102, by decide +kernel, by decide +kernel⟩⟩
  exact (show (0 : Rat) ≤ 1006633 / 33554432 ∧ rnd (1006633 / 33554432) = 1006633 / 33554432 ∧ (1006633 / 33554432 : Rat) < pow2 128 by decide +kernel)

/-- And one sixteenth below them. -/
example : DrivesDown { wound with setpoint := Fl.ofRat (-1 / 16) } (Fl.ofRat 0) 255 (1006633 / 2 ^ 29) ∧ Within { wound with setpoint := Fl.ofRat (-1 / 16) } (Fl.ofRat 0) := by
  refine ⟨⟨⟨by decide +kernel, Fl.ofRat_ok 20⟩, ⟨by decide +kernel, Fl.ofRat_ok 1⟩, ⟨by decide +kernel, Fl.ofRat_ok 0⟩, ⟨by decide +kernel, Fl.ofRat_ok 255⟩, by decide +kernel, by decide +kernel,
    by decide +kernel, by decide +kernel, ⟨by decide +kernel, Fl.mul_ok ?_ (Fl.sub_ok _ _), by decide +kernel⟩, ⟨by decide +kernel, Fl.mul_ok (Fl.ofRat_ok 20) (Fl.sub_ok _ _), by decide +kernel, by decide +kernel⟩,
    by norm_num, by norm_num, by norm_num, by norm_num⟩, ⟨rfl, by decide +kernel, Fl.ofRat_ok 102, by decide +kernel, by decide +kernel⟩⟩
  exact (show (0 : Rat) ≤ 1006633 / 33554432 ∧ rnd (1006633 / 33554432) = 1006633 / 33554432 ∧ (1006633 / 33554432 : Rat) < pow2 128 by decide +kernel)

end PID

end Spine
