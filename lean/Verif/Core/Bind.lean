import Verif.Core.Outcome
/-!
# Taking a successful computation apart
-/

namespace Spine

theorem res_bind {α β : Type} {x : Res α} {f : α → Res β} {y : β} (h : x >>= f = .ok y) : ∃ a, x = .ok a ∧ f a = .ok y := by
  cases x with
  | error e => cases h
  | ok a => exact ⟨a, rfl, h⟩

end Spine
