import Verif.Model.Exception
/-!
# C106, C107: exceptions
-/

namespace Spine
open Machine

/-- **C106.** Off the native platform, what stands after an assertion is executed in a debug build only if its condition holds, whatever the handler does. Missing:
the native platform, where it is false. -/
theorem C106_guard_partial (p : Platform) (hp : p ≠ .native) (h : Option Reaction) (c : Bool)
    (hr : assertion .debug p h c = .returned) : c = true := by
  cases c
  · exfalso
    cases p <;> first | exact hp rfl | skip
    all_goals
      rcases h with _ | r
      · simp [assertion, throwError, Platform.haltReturns] at hr
      · cases r <;> simp [assertion, throwError, Platform.haltReturns] at hr
  · rfl

example : assertion .debug .zephyr (some .returns) true = .returned := rfl

/-- On the native platform it does hold if the handler throws, as those of the tests do. -/
theorem C106_native (h : Option Reaction) (hh : h = some .throws ∨ h = some .never) (c : Bool) (hr : assertion .debug .native h c = .returned) :
    c = true := by
  cases c
  · rcases hh with rfl | rfl <;> simp [assertion, throwError] at hr
  · rfl

/-- **C106.** A division by zero is stopped before it happens. Missing: as above. -/
theorem C106_divide_partial (p : Platform) (hp : p ≠ .native) (h : Option Reaction) (v scalar : Int) :
    divideChecked p h v scalar = .ok (if scalar = 0 then none else some (v.tdiv scalar)) := by
  have ht : throwError p h ≠ .returned := by
    cases p <;> first | exact absurd rfl hp | skip
    all_goals
      rcases h with _ | r
      · simp [throwError, Platform.haltReturns]
      · cases r <;> simp [throwError, Platform.haltReturns]
  by_cases hs : scalar = 0
  · simp [divideChecked, hs, ht]
  · simp [divideChecked, hs]

/-- With no handler set, a failed assertion on the native platform is passed, and the checked division divides by zero. -/
theorem C106_guard_counterexample :
    assertion .debug .native none false = .returned ∧ divideChecked .native none 7 0 = .error .ub
      ∧ divideChecked .native (some .returns) 7 0 = .error .ub := by
  refine ⟨rfl, ?_, ?_⟩ <;> simp [divideChecked, throwError, Platform.haltReturns]

/-- A history of `set_machine_exception_handler`: the handlers handed back, and the one that is set at the end. -/
def handlerRun {H : Type} : Option H → List (Option H) → List (Option H) × Option H
  | cur, [] => ([], cur)
  | cur, h :: hs => ((setHandler cur h).2 :: (handlerRun (setHandler cur h).1 hs).1, (handlerRun (setHandler cur h).1 hs).2)

/-- **C107.** No handler is lost or doubled: whatever is set in whatever order, the handlers handed back, followed by the current one, are the first one followed by
those that were set. -/
theorem C107_handlers {H : Type} (first : Option H) (hs : List (Option H)) :
    (handlerRun first hs).1 ++ [(handlerRun first hs).2] = first :: hs := by
  induction hs generalizing first with
  | nil => rfl
  | cons h hs ih => simp only [handlerRun, setHandler, List.cons_append, ih]

example : handlerRun (none : Option Nat) [some 1, some 2, none] = ([none, some 1, some 2], none) := rfl

end Spine
