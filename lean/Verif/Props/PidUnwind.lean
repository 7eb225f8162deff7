import Verif.Props.PidSteady
import Verif.Props.PidAccuracy
/-!
# C113 in single precision
-/

namespace Spine
open F32 Fl Pid PidAccuracy

/-- **C113 (partial)**, in single precision: what is missing from the integral part is at most the rounding errors of one computation, see C138. Missing: the rounding errors themselves
(`C113_rounding_counterexample`); changes of the setpoint. -/
theorem C113_float_partial {s s' : Pid Fl} {v : Fl} {now : Int} {X K L : Rat} (hk : ∀ z ∈ [s.kp, s.ki, s.kd], Good z K) (hx : ∀ z ∈ [s.setpoint, s.input, s.lastReading], Good z X)
    (hl : ∀ z ∈ [s.lo, s.hi, s.cumulative], Good z L) (hord : Fl.le s.lo s.hi = true) (ho : s.output.fin = true) (hX : X ≤ pow2 120) (hG : 2 * K * X ≤ pow2 120) (hL : L ≤ pow2 120)
    (hv : Good v X) (hlo : Fl.le s.lo s.cumulative = true) (hhi : Fl.le s.cumulative s.hi = true) (h : PID.newReading s v now = .ok (true, s')) :
    (TurnsDown (exact s) v.val → s'.output.val ≤ max s.lo.val (s.hi.val - |s.ki.val * (s.setpoint.val - v.val)|) + 2 * ((3 * L + 16 * (K * X)) / 2 ^ 24 + pow2 (-148))) ∧
    (TurnsUp (exact s) v.val → min s.hi.val (s.lo.val + |s.ki.val * (s.setpoint.val - v.val)|) - 2 * ((3 * L + 16 * (K * X)) / 2 ^ 24 + pow2 (-148)) ≤ s'.output.val) := by
  have hr : PID.readings s [(now, v)] = .ok ([true], s') := by
    simp only [PID.readings, h, res_bind_ok, res_pure]
  obtain ⟨t', e1, -, -, -, e2⟩ := C138_drift hk hx hl hord ho hX hG hL (rs := [(now, v)]) (by simpa using hv) hr
  have e3 : PID.newReading (exact s) v.val now = .ok (true, t') := by
    simp only [List.map_cons, List.map_nil, PID.readings] at e1
    obtain ⟨⟨f, t⟩, h1, e1⟩ := res_bind e1
    simp only [res_bind_ok, res_pure, Except.ok.injEq, Prod.mk.injEq, List.cons.injEq, and_true] at e1
    rw [h1, e1.1, e1.2]
  have g1 := hl s.lo (by simp)
  have g2 := hl s.hi (by simp)
  have g3 := hl s.cumulative (by simp)
  rw [Fl.le_iff g1.1 g2.1] at hord
  rw [Fl.le_iff g1.1 g3.1] at hlo
  rw [Fl.le_iff g3.1 g2.1] at hhi
  obtain ⟨k1, k2⟩ := C113_unwinds_partial (s := exact s) (v := v.val) hord hlo hhi e3
  have e4 : |s'.output.val - t'.output| ≤ 2 * ((3 * L + 16 * (K * X)) / 2 ^ 24 + pow2 (-148)) := by
    have : (([true].count true : Nat) : Rat) + 1 = 2 := by norm_num
    rwa [this] at e2
  rw [abs_le] at e4
  constructor
  · intro ht
    have : t'.output ≤ max s.lo.val (s.hi.val - |s.ki.val * (s.setpoint.val - v.val)|) := k1 ht
    linarith
  · intro ht
    have : min s.hi.val (s.lo.val + |s.ki.val * (s.setpoint.val - v.val)|) ≤ t'.output := k2 ht
    linarith

/-- A controller with an integral part only, whose setpoint is 100, and four readings: three of 0, which lead to the limit 255, and one. -/
def windup (last : Rat) : Res (List Fl) := do
  let cfg : PidConfig Fl := { PidConfig.default with kp := Fl.ofRat 0, ki := Fl.ofRat 10, kd := Fl.ofRat 0 }
  let s ← PID.create cfg .debug 1000
  let s ← PID.run cfg .debug s [.start, .setpoint (Fl.ofRat 100)]
  let s₁ ← PID.run cfg .debug s [.reading (Fl.ofRat 0) 1100, .reading (Fl.ofRat 0) 1200, .reading (Fl.ofRat 0) 1300]
  let s₂ ← PID.run cfg .debug s₁ [.reading (Fl.ofRat last) 1400]
  return [s₁.output, s₂.output]

/-- C113 is false in single precision, if the integral part is too small: with a reading of 2^-17 above the setpoint and a gain of 1 per sample, the output stays at 255. -/
theorem C113_rounding_counterexample : windup (100 + 1 / 2 ^ 17) = .ok [Fl.ofRat 255, Fl.ofRat 255] := by decide +kernel

/-- With a reading of 10 above the setpoint it goes down by 10. -/
example : windup 110 = .ok [Fl.ofRat 255, Fl.ofRat 245] := by decide +kernel

end Spine
