import Verif.Proofs.Fused
/-!
# Property C180: what holds also with fused multiply-add

C44, C138, C50 and C135 are about code whose every operation rounds. Here the compiler may contract any of the sums with a product in `PIDController::update` and `MappedRange::value`, as
GCC does by default where the processor has the instruction.
-/

namespace Spine

open F32 Fl Pid

namespace Fused
open FilterAccuracy PidAccuracy

theorem compute_off (s : Pid Fl) (now : Int) : s.computeF .off now = s.compute now := by
  cases hm : s.onMeasurement <;> simp only [computeF, compute, hm] <;> rfl

theorem heldF_exec {fu : Fuse} {b : Build} {s s' : Pid Fl} {op : Pid.Op Fl} (h : Held s) (he : s.execF fu b op = .ok s') :
    Held s' ∧ (s'.lo, s'.hi) = limitsAfter (s.lo, s.hi) [op] := by
  cases op with
  | update now =>
    simp only [Pid.execF, updateF] at he
    obtain ⟨x, hx, h2⟩ := res_bind he
    cases h2
    obtain ⟨d, -, hx⟩ := res_bind hx
    obtain ⟨c, -, hx⟩ := res_bind hx
    split at hx <;> cases hx
    · exact ⟨⟨h.1, clamp_inside _ h.1⟩, rfl⟩
    · exact ⟨h, rfl⟩
  | input v => exact h.exec (b := b) he
  | setpoint v => exact h.exec (b := b) he
  | tunings kp ki kd m => exact h.exec (b := b) he
  | direction r => exact h.exec (b := b) he
  | sampling t => exact h.exec (b := b) he
  | limits lo hi => exact h.exec (b := b) he
  | start => exact h.exec (b := b) he

theorem heldF_run {fu : Fuse} {b : Build} (ops : List (Pid.Op Fl)) : ∀ {s s' : Pid Fl}, Held s → s.runF fu b ops = .ok s' →
    Held s' ∧ (s'.lo, s'.hi) = limitsAfter (s.lo, s.hi) ops := by
  induction ops with
  | nil => intro s s' h he; cases he; exact ⟨h, rfl⟩
  | cons op ops ih =>
    intro s s' h he
    obtain ⟨s1, h1, h2⟩ := res_bind he
    obtain ⟨h3, h4⟩ := heldF_exec h h1
    obtain ⟨h5, h6⟩ := ih h3 h2
    refine ⟨h5, h6.trans ?_⟩
    rw [h4]
    cases op <;> rfl

theorem heldF_pid {fu : Fuse} {cfg : PidConfig Fl} {b : Build} {s s' : Pid Fl} {op : PID.Op Fl} (h : Held s) (he : PID.execF fu cfg b s op = .ok s') :
    Held s' ∧ (s'.lo, s'.hi) = limitsAfter (s.lo, s.hi) (PID.ops cfg op) := by
  cases op with
  | reading v now =>
    simp only [PID.execF] at he
    obtain ⟨⟨f, s1⟩, h1, h2⟩ := res_bind he
    cases h2
    obtain ⟨-, e⟩ := newReadingF_iff h1
    change Held s1 ∧ _
    rw [e]
    cases f
    · exact ⟨h, rfl⟩
    · exact ⟨⟨h.1, clamp_inside _ h.1⟩, rfl⟩
  | start => exact h.run _ ((PID.exec_eq cfg b s .start).symm.trans he)
  | setpoint v => exact h.run _ ((PID.exec_eq cfg b s (.setpoint v)).symm.trans he)
  | tunings kp ki kd m => exact h.run _ ((PID.exec_eq cfg b s (.tunings kp ki kd m)).symm.trans he)

theorem heldF_pid_run {fu : Fuse} {cfg : PidConfig Fl} {b : Build} (ops : List (PID.Op Fl)) : ∀ {s s' : Pid Fl}, Held s → PID.runF fu cfg b s ops = .ok s' →
    Held s' ∧ (s'.lo, s'.hi) = limitsAfter (s.lo, s.hi) (ops.flatMap (PID.ops cfg)) := by
  induction ops with
  | nil => intro s s' h he; cases he; exact ⟨h, rfl⟩
  | cons op ops ih =>
    intro s s' h he
    obtain ⟨s1, h1, h2⟩ := res_bind he
    obtain ⟨h3, h4⟩ := heldF_pid h h1
    obtain ⟨h5, h6⟩ := ih h3 h2
    refine ⟨h5, h6.trans ?_⟩
    rw [h4, List.flatMap_cons, limitsAfter_append]

/-- Inside the limits, or NaN. -/
theorem inside_fl {lo hi o : Fl} (hl : Fl.lt lo hi = true) (h : Inside o lo hi) : o = .nan ∨ (Fl.le lo o = true ∧ Fl.le o hi = true) := by
  obtain ⟨h1, h2⟩ := h
  change Fl.lt _ _ = false at h1 h2
  cases lo <;> cases hi <;> cases o <;> simp_all [Fl.lt, Fl.le]

theorem reading_close {X K L e : Rat} {fu : Fuse} {s s' : Pid Fl} {t : Pid Rat} (h : Near X K L e (e + stepError X K L) s t) (hX : X ≤ pow2 120) (hG : 2 * K * X ≤ pow2 120)
    (hL : L ≤ pow2 120) {v : Fl} (hv : Good v X) {now : Int} {f : Bool} (hr : PID.newReadingF fu s v now = .ok (f, s')) :
    ∃ t', PID.newReading t v.val now = .ok (f, t') ∧ Near X K L (if f then e + stepError X K L else e) (if f then e + 2 * stepError X K L else e + stepError X K L) s' t' := by
  obtain ⟨h1, h2⟩ := newReadingF_iff hr
  obtain ⟨t', h3, h4⟩ := PidAccuracy.reading_close h hX hG hL hv h1
  refine ⟨t', h3, ?_⟩
  cases f
  · rw [h2]; exact h4
  · rw [newReading_true h3, h2]
    have h0 : Near X K L e (e + stepError X K L) { s with input := v } { t with input := v.val } := by
      obtain ⟨a1, a2, a3, a4, a5, a6, a7, a8, a9, a10, ⟨t1, t2, t3, t4, t5, t6, t7, t8, t9, t10, t11⟩, a11, a12, a13⟩ := h
      exact ⟨a1, a2, a3, a4, hv, a6, a7, a8, a9, a10, ⟨t1, t2, t3, t4, rfl, t6, t7, t8, t9, t10, t11⟩, a11, a12, a13⟩
    exact step_close fu h0 hX hG hL now

end Fused

open Fused PidAccuracy

/-- **C180**: with no place contracted, this is the code of C44, C50, C135 and C138. -/
theorem C180_off : (∀ s rs, PID.readingsF .off s rs = PID.readings s rs) ∧ (∀ cfg b s ops, PID.runF .off cfg b s ops = PID.run cfg b s ops) ∧
    ∀ (c : MapCfg Fl) x, c.mapF false x = c.map x := by
  have hn : ∀ s v now, PID.newReadingF .off s v now = PID.newReading s v now := by
    intro s v now
    simp only [PID.newReadingF, PID.newReading, updateF, update, compute_off]
  refine ⟨?_, ?_, fun c x => rfl⟩
  · intro s rs
    induction rs generalizing s with
    | nil => rfl
    | cons r rs ih =>
      simp only [PID.readingsF, PID.readings, hn, ih]
  · intro cfg b s ops
    induction ops generalizing s with
    | nil => rfl
    | cons op ops ih =>
      have e : PID.execF .off cfg b s op = PID.exec cfg b s op := by
        cases op <;> simp only [PID.execF, PID.exec, hn]
      simp only [PID.runF, PID.run, e, ih]

/-- **C180**, limits of a `PID`: whatever is contracted, from `initialize()` on the output is NaN or inside the configured limits (see C44). -/
theorem C180_limits {fu : Fuse} {b : Build} {now : Int} {cfg : PidConfig Fl} {s0 s : Pid Fl} (hcfg : Fl.lt cfg.lower cfg.upper = true)
    (h0 : PID.create cfg b now = .ok s0) {pre post : List (PID.Op Fl)} (h : PID.runF fu cfg b s0 (pre ++ .start :: post) = .ok s) :
    s.output = .nan ∨ (Fl.le cfg.lower s.output = true ∧ Fl.le s.output cfg.upper = true) := by
  have hu : Arith.le cfg.upper cfg.lower = false := by
    by_contra hc
    have := LawfulArith.not_lt _ _ (by simpa using hc : Arith.le cfg.upper cfg.lower = true)
    rw [show Arith.lt cfg.lower cfg.upper = Fl.lt cfg.lower cfg.upper from rfl, hcfg] at this
    cases this
  obtain ⟨hh, e2, e3⟩ := pid_held (by decide +kernel) h0
  obtain ⟨⟨-, h1⟩, h2⟩ := heldF_pid_run _ hh h
  have e : limitsAfter (s0.lo, s0.hi) ((pre ++ PID.Op.start :: post).flatMap (PID.ops cfg)) = (cfg.lower, cfg.upper) := by
    rw [List.flatMap_append, List.flatMap_cons, limitsAfter_append, limitsAfter_append]
    simp only [PID.ops, limitsAfter, hu, Bool.false_eq_true, if_false]
    exact limitsAfter_pid hu post
  rw [e] at h2
  simp only [Prod.mk.injEq] at h2
  rw [h2.1, h2.2] at h1
  exact inside_fl hcfg h1

/-- **C180**, limits of a `PIDController`: whatever is contracted, the output is not beyond the limits in force. -/
theorem C180_controller {fu : Fuse} {b : Build} {now : Int} {i o sp kp ki kd : Fl} {m r : Bool} {s0 s : Pid Fl} (ho : Inside o (Fl.ofRat 0) (Fl.ofRat 255))
    (h0 : Pid.create b now i o sp kp ki kd m r = .ok s0) {ops : List (Pid.Op Fl)} (h : s0.runF fu b ops = .ok s) :
    Inside s.output (limitsAfter (Fl.ofRat 0, Fl.ofRat 255) ops).1 (limitsAfter (Fl.ofRat 0, Fl.ofRat 255) ops).2 := by
  obtain ⟨e1, e2, e3, -⟩ := create_state h0
  have hh : Held s0 := by
    unfold Held
    rw [e1, e2, e3]
    exact ⟨by decide +kernel, ho⟩
  obtain ⟨⟨-, h1⟩, h2⟩ := heldF_run ops hh h
  rw [e2, e3] at h2
  change (s.lo, s.hi) = limitsAfter (Fl.ofRat 0, Fl.ofRat 255) ops at h2
  rw [← h2]
  exact h1

/-- **C180**, accuracy of the controller: whatever is contracted, after any series of readings the integral and the output are as close to those of a controller in exact arithmetic as C138
says. -/
theorem C180_drift {fu : Fuse} {s s' : Pid Fl} {X K L : Rat} (hk : ∀ z ∈ [s.kp, s.ki, s.kd], Good z K) (hx : ∀ z ∈ [s.setpoint, s.input, s.lastReading], Good z X)
    (hl : ∀ z ∈ [s.lo, s.hi, s.cumulative], Good z L) (hord : Fl.le s.lo s.hi = true) (ho : s.output.fin = true)
    (hX : X ≤ pow2 120) (hG : 2 * K * X ≤ pow2 120) (hL : L ≤ pow2 120) {rs : List (Int × Fl)} (hrs : ∀ r ∈ rs, Good r.2 X) {fs : List Bool}
    (h : PID.readingsF fu s rs = .ok (fs, s')) :
    ∃ t', PID.readings (exact s) (rs.map fun r => (r.1, r.2.val)) = .ok (fs, t') ∧ s'.cumulative.fin = true ∧ s'.output.fin = true ∧
      |s'.cumulative.val - t'.cumulative| ≤ fs.count true * ((3 * L + 16 * (K * X)) / 2 ^ 24 + pow2 (-148)) ∧
      |s'.output.val - t'.output| ≤ (fs.count true + 1) * ((3 * L + 16 * (K * X)) / 2 ^ 24 + pow2 (-148)) := by
  have hkx : 0 ≤ K * X := by
    have h1 := (hk s.kp (by simp)).2.2
    have h2 := (hx s.setpoint (by simp)).2.2
    exact mul_nonneg ((abs_nonneg _).trans h1) ((abs_nonneg _).trans h2)
  have hl0 : 0 ≤ L := (abs_nonneg _).trans (hl s.lo (by simp)).2.2
  have hpos := stepError_nonneg hkx hl0
  have key : ∀ (rs : List (Int × Fl)) (s s' : Pid Fl) (t : Pid Rat) (e : Rat) (fs : List Bool), (∀ r ∈ rs, Good r.2 X) → Near X K L e (e + stepError X K L) s t →
      PID.readingsF fu s rs = .ok (fs, s') → ∃ t', PID.readings t (rs.map fun r => (r.1, r.2.val)) = .ok (fs, t') ∧
        Near X K L (e + fs.count true * stepError X K L) (e + fs.count true * stepError X K L + stepError X K L) s' t' := by
    intro rs
    induction rs with
    | nil =>
      intro s s' t e fs _ hn h
      cases h
      exact ⟨t, rfl, by simpa using hn⟩
    | cons r rs ih =>
      intro s s' t e fs hrs hn h
      obtain ⟨now, v⟩ := r
      simp only [PID.readingsF] at h
      obtain ⟨⟨f, s1⟩, h1, h⟩ := res_bind h
      obtain ⟨⟨fs1, s2⟩, h2, h⟩ := res_bind h
      cases h
      obtain ⟨t1, e1, n1⟩ := Fused.reading_close hn hX hG hL (hrs (now, v) List.mem_cons_self) h1
      have hrest : ∀ r ∈ rs, Good r.2 X := fun r hr => hrs r (List.mem_cons_of_mem _ hr)
      cases f
      · obtain ⟨t', e2, n2⟩ := ih s1 s2 t1 e fs1 hrest n1 h2
        refine ⟨t', ?_, ?_⟩
        · simp only [List.map_cons, PID.readings, e1, res_bind_ok, e2, res_pure]
        · simpa using n2
      · simp only [if_true] at n1
        obtain ⟨t', e2, n2⟩ := ih s1 s2 t1 (e + stepError X K L) fs1 hrest (by rwa [add_assoc, ← two_mul]) h2
        refine ⟨t', ?_, ?_⟩
        · simp only [List.map_cons, PID.readings, e1, res_bind_ok, e2, res_pure]
        · rw [List.count_cons_self]
          push_cast
          rwa [show e + ((fs1.count true : Rat) + 1) * stepError X K L = e + stepError X K L + fs1.count true * stepError X K L by ring]
  have h0 : Near X K L 0 (0 + stepError X K L) s (exact s) := by
    refine ⟨hk _ (by simp), hk _ (by simp), hk _ (by simp), hx _ (by simp), hx _ (by simp), hx _ (by simp), hl _ (by simp), hl _ (by simp),
      (le_iff (hl s.lo (by simp)).1 (hl s.hi (by simp)).1).mp hord, hl _ (by simp), ⟨rfl, rfl, rfl, rfl, rfl, rfl, rfl, rfl, rfl, rfl, rfl⟩, ?_, ho, ?_⟩
    · simp [exact]
    · simpa [exact] using hpos
  obtain ⟨t', e1, n1⟩ := key rs s s' (exact s) 0 fs hrs h0 h
  refine ⟨t', e1, n1.cumulative.1, n1.outFin, ?_, ?_⟩
  · have := n1.integral
    rwa [zero_add] at this
  · have := n1.out
    rw [zero_add] at this
    unfold stepError at this
    linarith

/-- A run of a `PID` with everything contracted, which pushes against both limits; all hypotheses of **C180** on limits are met. -/
example : (do
    let cfg : PidConfig Fl := { PidConfig.default with lower := Fl.ofRat 10, upper := Fl.ofRat 60 }
    let s ← PID.create cfg .debug 1000
    let s1 ← PID.runF ⟨true, true, true, true⟩ cfg .debug s [.start, .setpoint (Fl.ofRat 50), .reading (Fl.ofRat 20) 1000]
    let s2 ← PID.runF ⟨true, true, true, true⟩ cfg .debug s1 [.reading (Fl.ofRat 10) 1100]
    return [s1.output.val, s2.output.val] : Res (List Rat)) = .ok [10, 60] := by decide +kernel

/-- The hypotheses of **C180** on accuracy are met by the integrator of C138 with everything contracted. -/
example : (PID.readingsF ⟨true, true, true, true⟩ integrator [(100, Fl.ofRat 0), (150, Fl.ofRat 0), (200, Fl.ofRat 0)]).map Prod.fst = .ok [true, false, true] := by decide +kernel

/-- **C180**, `MappedRange`: contracted or not, for limits of at most 2^125 and finite samples, larger samples give larger results (smaller ones if the output range is the other way round), the lower
limit is met exactly, and the result differs from the exact linear mapping by no more than C135 says. -/
theorem C180_mapped (f : Bool) {c : MapCfg Fl} (h : ∀ z ∈ [c.inLo, c.inHi, c.outLo, c.outHi], z.fin = true ∧ z.Ok ∧ |z.val| ≤ pow2 125) (hlt : Fl.lt c.inLo c.inHi = true)
    (ht : c.throws = false) {x x' : Fl} (hx : x.fin = true) (hxo : x.Ok) (hx' : x'.fin = true) (hle : Fl.le x x' = true) :
    ∃ y y', c.mapF f x = .ok (some y) ∧ c.mapF f x' = .ok (some y') ∧ (Fl.le c.outLo c.outHi = true → Fl.le y y' = true) ∧ (Fl.le c.outHi c.outLo = true → Fl.le y' y = true) ∧
      (Fl.le x c.inLo = true → y.val = c.outLo.val) ∧
      |y.val - (c.outLo.val + (max c.inLo.val (min c.inHi.val x.val) - c.inLo.val) / (c.inHi.val - c.inLo.val) * (c.outHi.val - c.outLo.val))| ≤
        (6 * |c.outHi.val - c.outLo.val| + max |c.outLo.val| |c.outHi.val|) / 2 ^ 24 + pow2 (-149) := by
  have g1 := h c.inLo (by simp)
  have g2 := h c.inHi (by simp)
  have g3 := h c.outLo (by simp)
  have g4 := h c.outHi (by simp)
  rw [lt_iff g1.1 g2.1] at hlt
  rw [le_iff hx hx'] at hle
  obtain ⟨z, z1, z2, z3, z4⟩ := mapF_ieee f g1.1 g2.1 hlt ht hx
  obtain ⟨z', z1', z2', z3', z4'⟩ := mapF_ieee f g1.1 g2.1 hlt ht hx'
  have r : ∀ v : Rat, c.inLo.val ≤ max c.inLo.val (min c.inHi.val v) ∧ max c.inLo.val (min c.inHi.val v) ≤ c.inHi.val :=
    fun v => ⟨le_max_left _ _, max_le hlt.le (min_le_left _ _)⟩
  have zr : rnd z.val = z.val := by
    rcases z3 with rfl | rfl | rfl
    · exact hxo.rnd_val
    · exact g1.2.1.rnd_val
    · exact g2.2.1.rnd_val
  have hz : z.val ≤ z'.val := by rw [z2, z2']; exact max_le_max (le_refl _) (min_le_min (le_refl _) hle)
  have low : Fl.le x c.inLo = true → z.val - c.inLo.val = 0 := by
    intro hc
    rw [le_iff hx g1.1] at hc
    rw [z2, max_eq_left ((min_le_right _ _).trans hc), sub_self]
  refine ⟨_, _, z4, z4', ?_⟩
  rw [← z2]
  have b1 : c.inLo.val ≤ z.val := by rw [z2]; exact (r _).1
  have b2 : z.val ≤ c.inHi.val := by rw [z2]; exact (r _).2
  have b1' : c.inLo.val ≤ z'.val := by rw [z2']; exact (r _).1
  have b2' : z'.val ≤ c.inHi.val := by rw [z2']; exact (r _).2
  have up : Fl.le c.outLo c.outHi = true → 0 ≤ rnd (c.outHi.val - c.outLo.val) := by
    intro ho
    rw [le_iff g3.1 g4.1] at ho
    exact rnd_nonneg (by linarith)
  have down : Fl.le c.outHi c.outLo = true → rnd (c.outHi.val - c.outLo.val) ≤ 0 := by
    intro ho
    rw [le_iff g4.1 g3.1] at ho
    have := rnd_mono (show c.outHi.val - c.outLo.val ≤ 0 by linarith)
    rwa [F32.rnd_zero] at this
  cases f
  · obtain ⟨s1, s2, s3⟩ := FilterAccuracy.scale_val h z1 hlt b1 b2
    obtain ⟨s1', s2', -⟩ := FilterAccuracy.scale_val h z1' hlt b1' b2'
    have hq : rnd (rnd (z.val - c.inLo.val) / rnd (c.inHi.val - c.inLo.val)) ≤ rnd (rnd (z'.val - c.inLo.val) / rnd (c.inHi.val - c.inLo.val)) :=
      rnd_mono (div_le_div_of_nonneg_right (rnd_mono (by linarith)) s3.le)
    simp only [mulAdd, Bool.false_eq_true, if_false]
    refine ⟨fun ho => ?_, fun ho => ?_, fun hc => ?_, ?_⟩
    · rw [le_iff s1 s1', s2, s2']
      have := rnd_mono (mul_le_mul_of_nonneg_right hq (up ho))
      exact rnd_mono (by linarith)
    · rw [le_iff s1' s1, s2, s2']
      have := rnd_mono (mul_le_mul_of_nonpos_right hq (down ho))
      exact rnd_mono (by linarith)
    · rw [s2, low hc]
      simp [F32.rnd_zero, g3.2.1.rnd_val]
    · rw [s2]
      exact FilterAccuracy.scale_close zr g1.2.1.rnd_val g2.2.1.rnd_val g3.2.1.rnd_val g4.2.1.rnd_val hlt b1 b2 s3
  · obtain ⟨s1, s2, s3⟩ := fused_val h z1 hlt b1 b2
    obtain ⟨s1', s2', -⟩ := fused_val h z1' hlt b1' b2'
    have hq : rnd (rnd (z.val - c.inLo.val) / rnd (c.inHi.val - c.inLo.val)) ≤ rnd (rnd (z'.val - c.inLo.val) / rnd (c.inHi.val - c.inLo.val)) :=
      rnd_mono (div_le_div_of_nonneg_right (rnd_mono (by linarith)) s3.le)
    simp only [mulAdd, if_true]
    refine ⟨fun ho => ?_, fun ho => ?_, fun hc => ?_, ?_⟩
    · rw [le_iff s1 s1', s2, s2']
      have := mul_le_mul_of_nonneg_right hq (up ho)
      exact rnd_mono (by linarith)
    · rw [le_iff s1' s1, s2, s2']
      have := mul_le_mul_of_nonpos_right hq (down ho)
      exact rnd_mono (by linarith)
    · rw [s2, low hc]
      simp [F32.rnd_zero, g3.2.1.rnd_val]
    · rw [s2]
      exact fused_close zr g1.2.1.rnd_val g2.2.1.rnd_val g3.2.1.rnd_val g4.2.1.rnd_val hlt b1 b2 s3

/-- A controller with two gains that are no dyadic fractions. -/
def tenths : Pid Fl :=
  { kp := Fl.ofRat (1 / 10), ki := Fl.ofRat (3 / 10), kd := Fl.ofRat 0, reverse := false, input := Fl.ofRat 0, output := Fl.ofRat 1, setpoint := Fl.ofRat (9 / 10), lastTime := 0,
    cumulative := Fl.ofRat (2 / 3), lastReading := Fl.ofRat 0, sampling := 100, lo := Fl.ofRat 0, hi := Fl.ofRat 255, onMeasurement := false }

/-- **C180**: the results themselves do depend on it. One reading with and without contraction of the integral gives two different outputs; so does a percentage of a sample between 0.1 and 0.9. -/
theorem C180_differs :
    (PID.readingsF ⟨true, false, false, false⟩ tenths [(100, Fl.ofRat 0)]).map (fun p => p.2.output) ≠ (PID.readings tenths [(100, Fl.ofRat 0)]).map (fun p => p.2.output) ∧
    ∃ c : MapCfg Fl, c.mapF true (Fl.ofRat (3 / 10)) ≠ c.mapF false (Fl.ofRat (3 / 10)) :=
  ⟨by decide +kernel, { inLo := Fl.ofRat (1 / 10), inHi := Fl.ofRat (9 / 10), outLo := Fl.ofRat (1 / 3), outHi := Fl.ofRat 100, throws := false }, by decide +kernel⟩

end Spine
