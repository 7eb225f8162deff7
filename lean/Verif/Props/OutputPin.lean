import Verif.Model.OutputPin
import Mathlib.Data.List.Basic
/-!
# Property C182: initialising a digital output
-/

namespace Spine

namespace OutputPin

/-- The level that switches the attached device on. -/
abbrev onLevel (activeLow : Bool) : Bool := !activeLow

/-- The pin has never switched the attached device on. -/
def Quiet (p : OutputPin) : Prop := ∀ l ∈ p.driven, l ≠ onLevel p.activeLow

/-- The output after each of the calls, the first one included. -/
def trace (p : OutputPin) : List DigitalOut.Call → List OutputPin
  | [] => [p]
  | c :: cs => p :: (p.call c).trace cs

private theorem call_config (p : OutputPin) (c : DigitalOut.Call) : (p.call c).activeLow = p.activeLow := by
  cases c <;> rfl

/-- With the latch at the level for off, a call that leaves the output off drives no other level and leaves the latch there. -/
private theorem call_quiet {p : OutputPin} (hl : p.latch = p.activeLow) (hq : p.Quiet) (c : DigitalOut.Call) (hs : (p.call c).active ≠ .on) :
    (p.call c).latch = p.activeLow ∧ (p.call c).Quiet := by
  have set : ∀ (q : OutputPin) (s : Logical), q.activeLow = p.activeLow → q.Quiet → s ≠ .on → (q.setState s).latch = p.activeLow ∧ (q.setState s).Quiet := by
    intro q s he hq hs
    refine ⟨by simp [setState, write, hs, he], ?_⟩
    intro l hm
    simp only [setState, write, if_neg hs] at hm ⊢
    split at hm
    · rcases List.mem_cons.mp hm with h | h
      · rw [h, onLevel]; cases q.activeLow <;> decide
      · exact hq l h
    · exact hq l hm
  have quietMode : p.modeOutput.Quiet := by
    intro l hm
    rcases List.mem_cons.mp hm with h | h
    · rw [h, hl, onLevel]; show p.activeLow ≠ !p.activeLow; cases p.activeLow <;> decide
    · exact hq l h
  cases c with
  | init b => exact set _ _ rfl quietMode hs
  | setState s => exact set _ _ rfl hq hs
  | setBool b => exact set _ _ rfl hq hs
  | flip => exact set _ _ rfl hq hs

end OutputPin

open OutputPin

/-- C182 (partial): if the latch of the pin is at the level for off when the output is created, then whatever is called, the device is never switched on unless `state()` has been
on after one of the calls.
Missing: latches at the other level: the low one after a reset, for outputs that are active on a low level (`C182_counterexample`). -/
theorem C182_off_partial (activeLow : Bool) (calls : List DigitalOut.Call)
    (h : ∀ p ∈ (OutputPin.create activeLow activeLow).trace calls, p.active ≠ .on) : ∀ p ∈ (OutputPin.create activeLow activeLow).trace calls, p.Quiet := by
  have key : ∀ (calls : List DigitalOut.Call) (p : OutputPin), p.latch = p.activeLow → p.Quiet → (∀ q ∈ p.trace calls, q.active ≠ .on) → ∀ q ∈ p.trace calls, q.Quiet := by
    intro calls
    induction calls with
    | nil => intro p _ hq _ q hm; rw [trace, List.mem_singleton] at hm; rw [hm]; exact hq
    | cons c cs ih =>
      intro p hl hq hs q hm
      rw [trace] at hm hs
      rcases List.mem_cons.mp hm with e | hm
      · rw [e]; exact hq
      · have hc : (p.call c).active ≠ .on := by
          apply hs
          apply List.mem_cons_of_mem
          cases cs <;> exact List.mem_cons_self
        obtain ⟨h1, h2⟩ := call_quiet hl hq c hc
        exact ih (p.call c) (by rw [h1]; cases c <;> rfl) h2 (fun q hq => hs q (List.mem_cons_of_mem _ hq)) q hm
  exact key calls _ rfl (by intro l hl; cases hl) h

/-- An output that is active on a low level with a latch which is high, and one that is active on a high level after a reset: initialised, set, and never on. -/
example : (∀ p ∈ (OutputPin.create true true).trace [.init false, .setState .undefined, .setBool false], p.active ≠ .on) ∧
    (∀ p ∈ (OutputPin.create false false).trace [.init false, .setBool false], p.active ≠ .on) ∧
    ((OutputPin.create false false).init false).driven = [false, false] := by decide

/-- C182: what initialising does, exactly: the pin drives the level of its latch and then the level for the state asked for, and ends in that state. So `initialize(false)`
switches the device on for a moment just if the latch is at the level for on. -/
theorem C182_initialize (activeLow latch active : Bool) :
    ((OutputPin.create activeLow latch).init active).driven = [if active then onLevel activeLow else activeLow, latch] ∧
    ((OutputPin.create activeLow latch).init active).active = (if active then .on else .off) ∧
    (((OutputPin.create activeLow latch).init false).Quiet ↔ latch = activeLow) := by
  refine ⟨by cases activeLow <;> cases active <;> rfl, by cases active <;> rfl, ?_⟩
  cases activeLow <;> cases latch <;> simp [Quiet, OutputPin.init, setBool, setState, write, modeOutput, create]

/-- C182: setting the state to off before initialising avoids this on every pin: the write changes the latch while the pin is still an input. -/
theorem C182_set_first (activeLow latch : Bool) (calls : List DigitalOut.Call)
    (h : ∀ p ∈ (OutputPin.create activeLow latch).trace (.setBool false :: calls), p.active ≠ .on) :
    ∀ p ∈ (OutputPin.create activeLow latch).trace (.setBool false :: calls), p.Quiet := by
  have e : (OutputPin.create activeLow latch).call (.setBool false) = OutputPin.create activeLow activeLow := by
    cases activeLow <;> cases latch <;> rfl
  intro p hp
  rw [trace, e] at hp h
  rcases List.mem_cons.mp hp with hp | hp
  · rw [hp]; intro l hl; cases hl
  · exact C182_off_partial activeLow calls (fun q hq => h q (List.mem_cons_of_mem _ hq)) p hp

/-- An output that is active on a low level, after a reset: nothing but high levels. -/
example : ((OutputPin.create true false).trace [.setBool false, .init false]).map (·.driven) = [[], [], [true, true]] := by decide

/-- C182 is false in general: after a reset, initialising an output that is active on a low level, as off, switches its device on first, although `state()` is off all the time. -/
theorem C182_counterexample : ((OutputPin.create true false).init false).driven = [true, false] ∧ ¬((OutputPin.create true false).init false).Quiet ∧
    ((OutputPin.create true false).trace [.init false]).map (·.active) = [.off, .off] := by
  refine ⟨rfl, fun h => ?_, rfl⟩
  exact absurd (h false (by decide)) (by decide)

/-- C182: once initialised, the last level driven is the one that the model of outputs without modes gives, after any calls: `state()` on is the level for on, and everything else
the other one. -/
theorem C182_follows (activeLow latch b : Bool) (calls : List DigitalOut.Call) :
    let p := calls.foldl OutputPin.call ((OutputPin.create activeLow latch).init b)
    p.driven.head? = some (if p.active = .on then onLevel activeLow else activeLow) ∧
      p.driven.head? = (calls.foldl DigitalOut.call ((DigitalOut.create activeLow).init b)).level ∧
      p.active = (calls.foldl DigitalOut.call ((DigitalOut.create activeLow).init b)).active := by
  have key : ∀ (calls : List DigitalOut.Call) (p : OutputPin) (d : DigitalOut), p.output = true → p.activeLow = activeLow → d.activeLow = activeLow →
      p.active = d.active → p.driven.head? = d.level → d.level = some (if d.active = .on then onLevel activeLow else activeLow) →
      (calls.foldl OutputPin.call p).driven.head? = some (if (calls.foldl OutputPin.call p).active = .on then onLevel activeLow else activeLow) ∧
        (calls.foldl OutputPin.call p).driven.head? = (calls.foldl DigitalOut.call d).level ∧
        (calls.foldl OutputPin.call p).active = (calls.foldl DigitalOut.call d).active := by
    intro calls
    induction calls with
    | nil => intro p d _ _ _ ha hl hd; exact ⟨by rw [show List.foldl OutputPin.call p [] = p from rfl, hl, ha, hd], hl, ha⟩
    | cons c cs ih =>
      intro p d ho hp hd ha hl hv
      refine ih (p.call c) (d.call c) ?_ ?_ ?_ ?_ ?_ ?_
      · cases c <;> first | rfl | exact ho
      · rw [← hp]; cases c <;> rfl
      · rw [← hd]; cases c <;> rfl
      · cases c <;> first | rfl | (simp only [OutputPin.call, DigitalOut.call, OutputPin.flip, DigitalOut.flip, ha]; rfl)
      · cases c <;> simp [OutputPin.call, DigitalOut.call, OutputPin.flip, DigitalOut.flip, OutputPin.init, DigitalOut.init, OutputPin.setBool, DigitalOut.setBool,
          OutputPin.setState, DigitalOut.setState, write, modeOutput, ho, hp, hd, ha]
      · cases c <;> simp [DigitalOut.call, DigitalOut.flip, DigitalOut.init, DigitalOut.setBool, DigitalOut.setState, hd, onLevel]
  exact key calls _ _ rfl rfl rfl rfl rfl (by cases b <;> rfl)

/-- An output that is active on a low level, initialised as on, flipped, set to undefined and on again. -/
example : ([.flip, .setState .undefined, .setBool true] : List DigitalOut.Call).foldl OutputPin.call ((OutputPin.create true true).init true) =
    ⟨true, .on, true, false, [false, true, true, false, true]⟩ := by decide

end Spine
