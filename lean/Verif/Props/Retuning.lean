import Verif.Props.Pid
import Verif.Props.PidAccuracy
import Verif.Core.Bind
/-!
# C203: retuning a controller at rest does not move its output
-/

namespace Spine

namespace Pid

/-- Specification: the controller is at rest at the value `v`: its input, its last reading and its setpoint are that value, and its output is its sum, within the limits. -/
structure Rest (s : Pid Rat) (v : Rat) : Prop where
  input : s.input = v
  setpoint : s.setpoint = v
  last : s.lastReading = v
  sum : s.cumulative = s.output
  lo : s.lo ≤ s.output
  hi : s.output ≤ s.hi

theorem clamp_within {lo hi x : Rat} (h1 : lo ≤ x) (h2 : x ≤ hi) : clamp lo hi x = x := by
  simp [clamp, Arith.lt, not_lt.mpr h1, not_lt.mpr h2]

theorem clamp_between {lo hi : Rat} (h : lo ≤ hi) (x : Rat) : lo ≤ clamp lo hi x ∧ clamp lo hi x ≤ hi := by
  simp only [clamp, Arith.lt, decide_eq_true_eq]
  split
  · exact ⟨h, le_rfl⟩
  · split
    · exact ⟨le_rfl, h⟩
    · constructor <;> linarith

/-- Specification: the operations that leave the value and the setpoint alone: readings of the value, the setpoint again, other gains, another proportionality, another direction, another
sampling time, `initialize`, limits around the output. -/
def Op.Quiet (v out : Rat) : Op Rat → Prop
  | .input w => w = v
  | .setpoint w => w = v
  | .limits lo hi => lo ≤ out ∧ out ≤ hi
  | .update _ => True
  | .tunings .. => True
  | .direction _ => True
  | .sampling _ => True
  | .start => True

theorem compute_rest {s : Pid Rat} {v : Rat} (h : s.Rest v) (now : Int) : (s.compute now).Rest v ∧ (s.compute now).output = s.output := by
  obtain ⟨h1, h2, h3, h4, h5, h6⟩ := h
  have hc : clamp s.lo s.hi s.output = s.output := clamp_within h5 h6
  have ho : (s.compute now).output = s.output := by
    cases hm : s.onMeasurement <;>
      simp [compute, hm, h1, h2, h3, h4, Arith.sub, Arith.add, Arith.mul, fzero, Arith.ofRat, hc]
  have hcu : (s.compute now).cumulative = s.output := by
    cases hm : s.onMeasurement <;>
      simp [compute, hm, h1, h2, h3, h4, Arith.sub, Arith.add, Arith.mul, hc]
  refine ⟨⟨h1, h2, h1, by rw [hcu, ho], ?_, ?_⟩, ho⟩
  · rw [ho]; exact h5
  · rw [ho]; exact h6

theorem exec_rest {b : Build} {s s' : Pid Rat} {v : Rat} (h : s.Rest v) {op : Op Rat} (hq : op.Quiet v s.output) (hr : s.exec b op = .ok s') : s'.Rest v ∧ s'.output = s.output := by
  have h' := h
  obtain ⟨h1, h2, h3, h4, h5, h6⟩ := h'
  cases op with
  | input w => obtain rfl := Except.ok.inj hr; exact ⟨⟨hq, h2, h3, h4, h5, h6⟩, rfl⟩
  | setpoint w => obtain rfl := Except.ok.inj hr; exact ⟨⟨h1, hq, h3, h4, h5, h6⟩, rfl⟩
  | update now =>
    simp only [exec] at hr
    obtain ⟨x, e, hr⟩ := res_bind hr
    obtain rfl := Except.ok.inj hr
    unfold update at e
    obtain ⟨_, -, e⟩ := res_bind e
    obtain ⟨c, -, e⟩ := res_bind e
    cases c with
    | true => obtain rfl := Except.ok.inj e; exact compute_rest h now
    | false => obtain rfl := Except.ok.inj e; exact ⟨h, rfl⟩
  | tunings kp ki kd m =>
    simp only [exec, setTunings] at hr
    obtain ⟨_, -, hr⟩ := res_bind hr
    obtain ⟨_, -, hr⟩ := res_bind hr
    obtain ⟨_, -, hr⟩ := res_bind hr
    obtain rfl := Except.ok.inj hr
    split
    · exact ⟨⟨h1, h2, h3, h4, h5, h6⟩, rfl⟩
    · exact ⟨⟨h1, h2, h3, h4, h5, h6⟩, rfl⟩
  | direction r =>
    obtain rfl := Except.ok.inj hr
    unfold setDirection
    split
    · exact ⟨⟨h1, h2, h3, h4, h5, h6⟩, rfl⟩
    · exact ⟨h, rfl⟩
  | sampling t =>
    simp only [exec, setSampling] at hr
    obtain ⟨c, -, hr⟩ := res_bind hr
    cases c with
    | false => obtain rfl := Except.ok.inj hr; exact ⟨h, rfl⟩
    | true =>
      simp only [if_true] at hr
      split at hr
      · cases hr
      · obtain rfl := Except.ok.inj hr; exact ⟨⟨h1, h2, h3, h4, h5, h6⟩, rfl⟩
  | limits lo hi =>
    obtain rfl := Except.ok.inj hr
    have hc : clamp lo hi s.output = s.output := clamp_within hq.1 hq.2
    unfold setLimits
    split
    · exact ⟨h, rfl⟩
    · exact ⟨⟨h1, h2, h3, by simp only [h4], by simp only [hc]; exact hq.1, by simp only [hc]; exact hq.2⟩, hc⟩
  | start =>
    obtain rfl := Except.ok.inj hr
    exact ⟨⟨h1, h2, h1, clamp_within h5 h6, h5, h6⟩, rfl⟩

/-- **C203.** The output of a controller at rest stays where it is, in exact arithmetic, whatever other gains, proportionality, direction, sampling time or limits around the output
are set, how often and when, and however often it is initialised. -/
theorem C203_rest {b : Build} {v : Rat} (ops : List (Op Rat)) : ∀ {s s' : Pid Rat}, s.Rest v → (∀ op ∈ ops, op.Quiet v s.output) → s.run b ops = .ok s' →
    s'.Rest v ∧ s'.output = s.output := by
  induction ops with
  | nil => intro s s' h _ hr; obtain rfl := Except.ok.inj hr; exact ⟨h, rfl⟩
  | cons op ops ih =>
    intro s s' h hq hr
    obtain ⟨s1, e1, hr⟩ := res_bind hr
    obtain ⟨r1, o1⟩ := exec_rest h (hq op (by simp)) e1
    obtain ⟨r2, o2⟩ := ih r1 (fun op hop => by rw [o1]; exact hq op (by simp [hop])) hr
    exact ⟨r2, o2.trans o1⟩

end Pid

namespace PID
open Pid

/-- **C203.** A controller comes to rest with the second computation in a row for which the reading is the setpoint. -/
theorem C203_comes_to_rest {s s1 s2 : Pid Rat} {v : Rat} {t t' : Int} (hl : s.lo ≤ s.hi) (hs : s.setpoint = v) (h1 : newReading s v t = .ok (true, s1))
    (h2 : newReading s1 v t' = .ok (true, s2)) : s2.Rest v := by
  have comp : ∀ {s s' : Pid Rat} {t : Int}, newReading s v t = .ok (true, s') → s' = ({ s with input := v } : Pid Rat).compute t := by
    intro s s' t h
    unfold newReading update at h
    obtain ⟨_, -, h⟩ := res_bind h
    obtain ⟨c, -, h⟩ := res_bind h
    cases c with
    | true => exact ((Prod.mk.inj (Except.ok.inj h)).2).symm
    | false => obtain ⟨h, -⟩ := Prod.mk.inj (Except.ok.inj h); cases h
  have e1 := comp h1
  have e2 := comp h2
  have a1 : s1.setpoint = v ∧ s1.lastReading = v ∧ s1.lo = s.lo ∧ s1.hi = s.hi ∧ s.lo ≤ s1.cumulative ∧ s1.cumulative ≤ s.hi := by
    rw [e1]; exact ⟨hs, rfl, rfl, rfl, clamp_between hl _⟩
  obtain ⟨b1, b2, b3, b4, b5, b6⟩ := a1
  have hc : clamp s1.lo s1.hi s1.cumulative = s1.cumulative := by rw [b3, b4]; exact clamp_within b5 b6
  have hcu : s2.cumulative = s1.cumulative := by
    rw [e2]
    cases hm : s1.onMeasurement <;> simp [compute, b1, b2, Arith.sub, Arith.add, Arith.mul, hc]
  have ho : s2.output = s1.cumulative := by
    rw [e2]
    cases hm : s1.onMeasurement <;> simp [compute, b1, b2, Arith.sub, Arith.add, Arith.mul, fzero, Arith.ofRat, hc]
  have hlo : s2.lo = s1.lo := by rw [e2]; rfl
  have hhi : s2.hi = s1.hi := by rw [e2]; rfl
  refine ⟨by rw [e2]; rfl, by rw [e2]; exact b1, by rw [e2]; rfl, by rw [hcu, ho], ?_, ?_⟩
  · rw [hlo, b3, ho]; exact b5
  · rw [hhi, b4, ho]; exact b6

theorem clamp_close (lo hi x y : Rat) (h : lo ≤ hi) : |clamp lo hi x - clamp lo hi y| ≤ |x - y| := PidAccuracy.clamp_lipschitz h le_rfl

/-- **C203.** Away from rest, in exact arithmetic: retuning moves the next output by no more than what the change of each gain does to the present error and the present change of
the reading. The past errors, which are in the sum, are not weighted anew. -/
theorem C203_bump {s t s1 t1 : Pid Rat} (hl : s.lo ≤ s.hi) {kp ki kd : Rat} (ht : t = { s with kp, ki, kd }) {v : Rat} {now : Int} (h1 : newReading s v now = .ok (true, s1))
    (h2 : newReading t v now = .ok (true, t1)) :
    |t1.output - s1.output| ≤ |ki - s.ki| * |s.setpoint - v| + |kp - s.kp| * (if s.onMeasurement then |v - s.lastReading| else |s.setpoint - v|) + |kd - s.kd| * |v - s.lastReading| := by
  have comp : ∀ {s s' : Pid Rat} {t : Int}, newReading s v t = .ok (true, s') → s' = ({ s with input := v } : Pid Rat).compute t := by
    intro s s' t h
    unfold newReading update at h
    obtain ⟨_, -, h⟩ := res_bind h
    obtain ⟨c, -, h⟩ := res_bind h
    cases c with
    | true => exact ((Prod.mk.inj (Except.ok.inj h)).2).symm
    | false => obtain ⟨h, -⟩ := Prod.mk.inj (Except.ok.inj h); cases h
  rw [comp h1, comp h2, ht]
  clear h1 h2 ht comp
  obtain ⟨kp0, ki0, kd0, r, inp, out, sp, lt, cu, lr, sa, lo, hi, om⟩ := s
  simp only at hl ⊢
  have m1 : |(ki - ki0) * (sp - v)| = |ki - ki0| * |sp - v| := abs_mul _ _
  have m3 : |(kd - kd0) * (v - lr)| = |kd - kd0| * |v - lr| := abs_mul _ _
  cases om
  · have m2 : |(kp - kp0) * (sp - v)| = |kp - kp0| * |sp - v| := abs_mul _ _
    simp only [compute, Arith.sub, Arith.add, Arith.mul, Bool.false_eq_true, if_false]
    refine (clamp_close _ _ _ _ hl).trans ?_
    have hc := clamp_close lo hi (cu + ki * (sp - v)) (cu + ki0 * (sp - v)) hl
    rw [show cu + ki * (sp - v) - (cu + ki0 * (sp - v)) = (ki - ki0) * (sp - v) by ring] at hc
    rw [show kp * (sp - v) + (clamp lo hi (cu + ki * (sp - v)) - kd * (v - lr)) - (kp0 * (sp - v) + (clamp lo hi (cu + ki0 * (sp - v)) - kd0 * (v - lr))) =
      (clamp lo hi (cu + ki * (sp - v)) - clamp lo hi (cu + ki0 * (sp - v))) + (kp - kp0) * (sp - v) - (kd - kd0) * (v - lr) by ring]
    have := abs_sub ((clamp lo hi (cu + ki * (sp - v)) - clamp lo hi (cu + ki0 * (sp - v))) + (kp - kp0) * (sp - v)) ((kd - kd0) * (v - lr))
    have := abs_add_le (clamp lo hi (cu + ki * (sp - v)) - clamp lo hi (cu + ki0 * (sp - v))) ((kp - kp0) * (sp - v))
    linarith
  · have m2 : |(kp - kp0) * (v - lr)| = |kp - kp0| * |v - lr| := abs_mul _ _
    simp only [compute, Arith.sub, Arith.add, Arith.mul, if_true]
    refine (clamp_close _ _ _ _ hl).trans ?_
    have hc := clamp_close lo hi (cu + ki * (sp - v) - kp * (v - lr)) (cu + ki0 * (sp - v) - kp0 * (v - lr)) hl
    rw [show cu + ki * (sp - v) - kp * (v - lr) - (cu + ki0 * (sp - v) - kp0 * (v - lr)) = (ki - ki0) * (sp - v) - (kp - kp0) * (v - lr) by ring] at hc
    rw [show (fzero : Rat) + (clamp lo hi (cu + ki * (sp - v) - kp * (v - lr)) - kd * (v - lr)) - (fzero + (clamp lo hi (cu + ki0 * (sp - v) - kp0 * (v - lr)) - kd0 * (v - lr))) =
      (clamp lo hi (cu + ki * (sp - v) - kp * (v - lr)) - clamp lo hi (cu + ki0 * (sp - v) - kp0 * (v - lr))) - (kd - kd0) * (v - lr) by ring]
    have := abs_sub (clamp lo hi (cu + ki * (sp - v) - kp * (v - lr)) - clamp lo hi (cu + ki0 * (sp - v) - kp0 * (v - lr))) ((kd - kd0) * (v - lr))
    have := abs_sub ((ki - ki0) * (sp - v)) ((kp - kp0) * (v - lr))
    linarith

/-! ## Floats -/

/-- Specification: at rest at the finite value `v`, with floats; the sum and the output are the same finite number within finite limits. -/
structure RestFl (s : Pid Fl) (v : Fl) : Prop where
  input : s.input = v
  setpoint : s.setpoint = v
  last : s.lastReading = v
  finV : v.fin = true
  finC : s.cumulative.fin = true
  okC : s.cumulative.Ok
  finO : s.output.fin = true
  okO : s.output.Ok
  sum : s.cumulative.val = s.output.val
  finLo : s.lo.fin = true
  finHi : s.hi.fin = true
  lo : s.lo.val ≤ s.output.val
  hi : s.output.val ≤ s.hi.val

/-- Specification: the gains are finite floats. -/
def GainsFinite (s : Pid Fl) : Prop := (s.kp.fin = true ∧ s.kp.Ok) ∧ (s.ki.fin = true ∧ s.ki.Ok) ∧ s.kd.fin = true ∧ s.kd.Ok

theorem small_rnd {x : Fl} (h : x.Ok) : |F32.rnd x.val| < F32.pow2 128 := by rw [h.rnd_val]; exact h.val_lt

theorem rnd_zero_lt : |F32.rnd 0| < F32.pow2 128 ∧ F32.rnd 0 = 0 := by constructor <;> decide +kernel

theorem sub_self_zero {v : Fl} (h : v.fin = true) : (Fl.sub v v).fin = true ∧ (Fl.sub v v).val = 0 := by
  have := Fl.sub_val h h (by rw [sub_self]; exact rnd_zero_lt.1)
  rwa [sub_self, rnd_zero_lt.2] at this

theorem mul_zero_val {k e : Fl} (hk : k.fin = true) (ok : k.Ok) (he : e.fin = true) (oe : e.Ok) (h0 : e.val = 0) : (Fl.mul k e).fin = true ∧ (Fl.mul k e).val = 0 := by
  have := Fl.mul_val hk he ok oe (by rw [h0, mul_zero]; exact rnd_zero_lt.1)
  rwa [h0, mul_zero, rnd_zero_lt.2] at this

theorem add_zero_val {x z : Fl} (hx : x.fin = true) (ok : x.Ok) (hz : z.fin = true) (h0 : z.val = 0) : (Fl.add x z).fin = true ∧ (Fl.add x z).val = x.val := by
  have := Fl.add_val hx hz (by rw [h0, add_zero]; exact small_rnd ok)
  rwa [h0, add_zero, ok.rnd_val] at this

theorem zero_add_val {x z : Fl} (hx : x.fin = true) (ok : x.Ok) (hz : z.fin = true) (h0 : z.val = 0) : (Fl.add z x).fin = true ∧ (Fl.add z x).val = x.val := by
  have := Fl.add_val hz hx (by rw [h0, zero_add]; exact small_rnd ok)
  rwa [h0, zero_add, ok.rnd_val] at this

theorem sub_zero_val {x z : Fl} (hx : x.fin = true) (ok : x.Ok) (hz : z.fin = true) (h0 : z.val = 0) : (Fl.sub x z).fin = true ∧ (Fl.sub x z).val = x.val := by
  have := Fl.sub_val hx hz (by rw [h0, sub_zero]; exact small_rnd ok)
  rwa [h0, sub_zero, ok.rnd_val] at this

theorem clamp_same {lo hi x : Fl} (h1 : lo.fin = true) (h2 : hi.fin = true) (h3 : x.fin = true) (h4 : lo.val ≤ x.val) (h5 : x.val ≤ hi.val) : clamp lo hi x = x := by
  have a1 : ¬ Fl.lt hi x = true := by rw [Fl.lt_iff h2 h3]; exact not_lt.mpr h5
  have a2 : ¬ Fl.lt x lo = true := by rw [Fl.lt_iff h3 h1]; exact not_lt.mpr h4
  unfold clamp
  rw [if_neg (show ¬ Arith.lt hi x = true from a1), if_neg (show ¬ Arith.lt x lo = true from a2)]

theorem compute_restFl {s : Pid Fl} {v : Fl} (h : RestFl s v) (hg : GainsFinite s) (now : Int) :
    RestFl (s.compute now) v ∧ (s.compute now).output.val = s.output.val := by
  obtain ⟨hi, h1, h2, h3, h4, h5, h6, -, h7, h8, h9, h10, h11⟩ := h
  obtain ⟨⟨p1, p2⟩, ⟨i1, i2⟩, d1, d2⟩ := hg
  obtain ⟨kp, ki, kd, r, inp, out, sp, lt, cu, lr, sa, lo, hi', om⟩ := s
  simp only at h1 h2 h4 h5 h6 h7 h8 h9 h10 h11 p1 p2 i1 i2 d1 d2 hi
  subst h1 h2 hi
  have z := sub_self_zero h3
  have zo : (Fl.sub inp inp).Ok := Fl.sub_ok _ _
  have mi := mul_zero_val i1 i2 z.1 zo z.2
  have mp := mul_zero_val p1 p2 z.1 zo z.2
  have md := mul_zero_val d1 d2 z.1 zo z.2
  have c1 := add_zero_val h4 h5 mi.1 mi.2
  have c1o : (Fl.add cu (Fl.mul ki (Fl.sub inp inp))).Ok := Fl.add_ok _ _
  have c2 := sub_zero_val c1.1 c1o mp.1 mp.2
  have c2o : (Fl.sub (Fl.add cu (Fl.mul ki (Fl.sub inp inp))) (Fl.mul kp (Fl.sub inp inp))).Ok := Fl.sub_ok _ _
  have fz : (fzero : Fl).fin = true ∧ (fzero : Fl).val = 0 := by constructor <;> decide +kernel
  cases om
  · have k1 : clamp lo hi' (Fl.add cu (Fl.mul ki (Fl.sub inp inp))) = Fl.add cu (Fl.mul ki (Fl.sub inp inp)) :=
      clamp_same h8 h9 c1.1 (by rw [c1.2, h7]; exact h10) (by rw [c1.2, h7]; exact h11)
    have o1 := sub_zero_val c1.1 c1o md.1 md.2
    have o1o : (Fl.sub (Fl.add cu (Fl.mul ki (Fl.sub inp inp))) (Fl.mul kd (Fl.sub inp inp))).Ok := Fl.sub_ok _ _
    have o2 := zero_add_val o1.1 o1o mp.1 mp.2
    have k2 := clamp_same h8 h9 o2.1 (by rw [o2.2, o1.2, c1.2, h7]; exact h10) (by rw [o2.2, o1.2, c1.2, h7]; exact h11)
    have e1 : ((⟨kp, ki, kd, r, inp, out, inp, lt, cu, inp, sa, lo, hi', false⟩ : Pid Fl).compute now).cumulative = Fl.add cu (Fl.mul ki (Fl.sub inp inp)) := k1
    have e2 : ((⟨kp, ki, kd, r, inp, out, inp, lt, cu, inp, sa, lo, hi', false⟩ : Pid Fl).compute now).output =
        Fl.add (Fl.mul kp (Fl.sub inp inp)) (Fl.sub (Fl.add cu (Fl.mul ki (Fl.sub inp inp))) (Fl.mul kd (Fl.sub inp inp))) := by
      rw [← k2]; conv_rhs => rw [← k1]
      rfl
    have v2 : ((⟨kp, ki, kd, r, inp, out, inp, lt, cu, inp, sa, lo, hi', false⟩ : Pid Fl).compute now).output.val = out.val := by rw [e2, o2.2, o1.2, c1.2, h7]
    exact ⟨⟨rfl, rfl, rfl, h3, by rw [e1]; exact c1.1, by rw [e1]; exact c1o, by rw [e2]; exact o2.1, by rw [e2]; exact Fl.add_ok _ _, by rw [v2, e1, c1.2, h7], h8, h9, by rw [v2]; exact h10, by rw [v2]; exact h11⟩, v2⟩
  · have k1 : clamp lo hi' (Fl.sub (Fl.add cu (Fl.mul ki (Fl.sub inp inp))) (Fl.mul kp (Fl.sub inp inp))) =
        Fl.sub (Fl.add cu (Fl.mul ki (Fl.sub inp inp))) (Fl.mul kp (Fl.sub inp inp)) :=
      clamp_same h8 h9 c2.1 (by rw [c2.2, c1.2, h7]; exact h10) (by rw [c2.2, c1.2, h7]; exact h11)
    have o1 := sub_zero_val c2.1 c2o md.1 md.2
    have o1o : (Fl.sub (Fl.sub (Fl.add cu (Fl.mul ki (Fl.sub inp inp))) (Fl.mul kp (Fl.sub inp inp))) (Fl.mul kd (Fl.sub inp inp))).Ok := Fl.sub_ok _ _
    have o2 := zero_add_val o1.1 o1o fz.1 fz.2
    have k2 := clamp_same h8 h9 o2.1 (by rw [o2.2, o1.2, c2.2, c1.2, h7]; exact h10) (by rw [o2.2, o1.2, c2.2, c1.2, h7]; exact h11)
    have e1 : ((⟨kp, ki, kd, r, inp, out, inp, lt, cu, inp, sa, lo, hi', true⟩ : Pid Fl).compute now).cumulative =
        Fl.sub (Fl.add cu (Fl.mul ki (Fl.sub inp inp))) (Fl.mul kp (Fl.sub inp inp)) := k1
    have e2 : ((⟨kp, ki, kd, r, inp, out, inp, lt, cu, inp, sa, lo, hi', true⟩ : Pid Fl).compute now).output =
        Fl.add fzero (Fl.sub (Fl.sub (Fl.add cu (Fl.mul ki (Fl.sub inp inp))) (Fl.mul kp (Fl.sub inp inp))) (Fl.mul kd (Fl.sub inp inp))) := by
      rw [← k2]; conv_rhs => rw [← k1]
      rfl
    have v2 : ((⟨kp, ki, kd, r, inp, out, inp, lt, cu, inp, sa, lo, hi', true⟩ : Pid Fl).compute now).output.val = out.val := by rw [e2, o2.2, o1.2, c2.2, c1.2, h7]
    exact ⟨⟨rfl, rfl, rfl, h3, by rw [e1]; exact c2.1, by rw [e1]; exact c2o, by rw [e2]; exact o2.1, by rw [e2]; exact Fl.add_ok _ _, by rw [v2, e1, c2.2, c1.2, h7], h8, h9, by rw [v2]; exact h10, by rw [v2]; exact h11⟩, v2⟩

/-- Specification: readings of the value, the setpoint again, any gains, and `initialize` if the configured limits are around the output, which is `q`. -/
def Op.QuietFl (cfg : PidConfig Fl) (v : Fl) (q : Rat) : Op Fl → Prop
  | .reading w _ => w = v
  | .setpoint w => w = v
  | .tunings .. => True
  | .start => cfg.lower.fin = true ∧ cfg.upper.fin = true ∧ cfg.lower.val ≤ q ∧ q ≤ cfg.upper.val

theorem RestFl.limits {s : Pid Fl} {v lo hi : Fl} (h : RestFl s v) (h1 : lo.fin = true) (h2 : hi.fin = true) (h3 : lo.val ≤ s.output.val) (h4 : s.output.val ≤ hi.val) :
    RestFl (s.setLimits lo hi) v ∧ (s.setLimits lo hi).output.val = s.output.val := by
  unfold setLimits
  split
  · exact ⟨h, rfl⟩
  · have e1 := clamp_same h1 h2 h.finO h3 h4
    have e2 := clamp_same h1 h2 h.finC (by rw [h.sum]; exact h3) (by rw [h.sum]; exact h4)
    simp only [e1, e2]
    exact ⟨⟨h.input, h.setpoint, h.last, h.finV, h.finC, h.okC, h.finO, h.okO, h.sum, h1, h2, h3, h4⟩, trivial⟩

/-- **C203.** With floats: the number shown by the output of a controller at rest stays the same, however often it is retuned or initialised, as long as the gains are finite. -/
theorem C203_float {cfg : PidConfig Fl} {b : Build} {v : Fl} (ops : List (Op Fl)) : ∀ {s s' : Pid Fl}, RestFl s v → (∀ op ∈ ops, op.QuietFl cfg v s.output.val) →
    (∀ pre s1, pre <+: ops → run cfg b s pre = .ok s1 → GainsFinite s1) → run cfg b s ops = .ok s' → RestFl s' v ∧ s'.output.val = s.output.val := by
  induction ops with
  | nil => intro s s' h _ _ hr; obtain rfl := Except.ok.inj hr; exact ⟨h, rfl⟩
  | cons op ops ih =>
    intro s s' h hq hg hr
    obtain ⟨s1, e1, hr⟩ := res_bind hr
    have step : RestFl s1 v ∧ s1.output.val = s.output.val := by
      have hq1 := hq op (by simp)
      have hg1 : GainsFinite s := hg [] s (List.nil_prefix) rfl
      cases op with
      | reading w now =>
        obtain rfl : w = v := hq1
        obtain ⟨x, e, e1⟩ := res_bind e1
        obtain rfl := Except.ok.inj e1
        unfold newReading update at e
        obtain ⟨_, -, e⟩ := res_bind e
        obtain ⟨c, -, e⟩ := res_bind e
        have h' : RestFl { s with input := w } w := ⟨rfl, h.setpoint, h.last, h.finV, h.finC, h.okC, h.finO, h.okO, h.sum, h.finLo, h.finHi, h.lo, h.hi⟩
        cases c with
        | true => obtain rfl := Except.ok.inj e; exact compute_restFl h' hg1 now
        | false => obtain rfl := Except.ok.inj e; exact ⟨h', rfl⟩
      | setpoint w =>
        obtain rfl := Except.ok.inj e1
        exact ⟨⟨h.input, hq1, h.last, h.finV, h.finC, h.okC, h.finO, h.okO, h.sum, h.finLo, h.finHi, h.lo, h.hi⟩, rfl⟩
      | tunings kp ki kd m =>
        simp only [exec, setTunings] at e1
        obtain ⟨_, -, e1⟩ := res_bind e1
        obtain ⟨_, -, e1⟩ := res_bind e1
        obtain ⟨_, -, e1⟩ := res_bind e1
        obtain rfl := Except.ok.inj e1
        split
        · exact ⟨⟨h.input, h.setpoint, h.last, h.finV, h.finC, h.okC, h.finO, h.okO, h.sum, h.finLo, h.finHi, h.lo, h.hi⟩, rfl⟩
        · exact ⟨⟨h.input, h.setpoint, h.last, h.finV, h.finC, h.okC, h.finO, h.okO, h.sum, h.finLo, h.finHi, h.lo, h.hi⟩, rfl⟩
      | start =>
        obtain ⟨q1, q2, q3, q4⟩ := hq1
        obtain ⟨r1, o1⟩ := h.limits q1 q2 q3 q4
        simp only [exec, PID.start] at e1
        obtain ⟨s2, e, e1⟩ := res_bind e1
        obtain rfl := Except.ok.inj e1
        have r2 : RestFl s2 v ∧ s2.output.val = s.output.val := by
          unfold setSampling at e
          obtain ⟨c, -, e⟩ := res_bind e
          cases c with
          | false => obtain rfl := Except.ok.inj e; exact ⟨r1, o1⟩
          | true =>
            simp only [if_true] at e
            split at e
            · cases e
            · obtain rfl := Except.ok.inj e
              exact ⟨⟨r1.input, r1.setpoint, r1.last, r1.finV, r1.finC, r1.okC, r1.finO, r1.okO, r1.sum, r1.finLo, r1.finHi, r1.lo, r1.hi⟩, o1⟩
        obtain ⟨r2, o2⟩ := r2
        have e3 : s2.start.cumulative = s2.output := clamp_same r2.finLo r2.finHi r2.finO r2.lo r2.hi
        exact ⟨⟨r2.input, r2.setpoint, r2.input, r2.finV, by rw [e3]; exact r2.finO, by rw [e3]; exact r2.okO, r2.finO, r2.okO, by rw [e3]; rfl, r2.finLo, r2.finHi, r2.lo, r2.hi⟩, o2⟩
    obtain ⟨r2, o2⟩ := ih step.1 (fun op hop => by rw [step.2]; exact hq op (by simp [hop])) (fun pre s2 hp hs => hg (op :: pre) s2 (by simpa using hp) (by simp only [run, e1, res_bind_ok]; exact hs)) hr
    exact ⟨r2, o2.trans step.2⟩

end PID

/-! ## Concrete cases -/

/-- A controller at rest at 20 with an output of 7; retuned, reversed, with another sampling time. -/
example : (⟨1, 2, 3, false, 20, 7, 20, 0, 7, 20, 100, 0, 255, false⟩ : Pid Rat).Rest 20 ∧
    (do let s ← (⟨1, 2, 3, false, 20, 7, 20, 0, 7, 20, 100, 0, 255, false⟩ : Pid Rat).run .debug
          [.tunings 50 60 70 true, .update 100, .direction true, .update 200, .sampling 50, .update 300]
        return (s.output, s.kp) : Res (Rat × Rat)) = .ok (7, -50) :=
  ⟨by constructor <;> norm_num, by decide +kernel⟩

/-- Why it has to be at rest: with an error of 5, twice the proportional gain gives an output of 22 instead of 17, which is the bound of `C203_bump`. -/
example : (do
    let s : Pid Rat := ⟨1, 2, 0, false, 15, 7, 20, 0, 2, 15, 100, 0, 255, false⟩
    let (_, s1) ← PID.newReading s 15 100
    let (_, t1) ← PID.newReading { s with kp := 2 } 15 100
    return (s1.output, t1.output) : Res (Rat × Rat)) = .ok (17, 22) := by decide +kernel

/-- A controller at rest with floats, with finite gains. -/
example : PID.RestFl ⟨Fl.ofRat 1, Fl.ofRat (3 / 10), Fl.ofRat 2, false, Fl.ofRat 20, Fl.ofRat (7 / 10), Fl.ofRat 20, 0, Fl.ofRat (7 / 10), Fl.ofRat 20, 100, fzero, Fl.ofRat 255, false⟩
    (Fl.ofRat 20) ∧
    PID.GainsFinite ⟨Fl.ofRat 1, Fl.ofRat (3 / 10), Fl.ofRat 2, false, Fl.ofRat 20, Fl.ofRat (7 / 10), Fl.ofRat 20, 0, Fl.ofRat (7 / 10), Fl.ofRat 20, 100, fzero, Fl.ofRat 255, false⟩ :=
  ⟨⟨rfl, rfl, rfl, by decide +kernel, by decide +kernel, Fl.ofRat_ok _, by decide +kernel, Fl.ofRat_ok _, rfl, by decide +kernel, by decide +kernel, by decide +kernel, by decide +kernel⟩,
    ⟨by decide +kernel, Fl.ofRat_ok _⟩, ⟨by decide +kernel, Fl.ofRat_ok _⟩, by decide +kernel, Fl.ofRat_ok _⟩

end Spine
