import Verif.Core.Bind
/-!
# Outcomes carried over from one build to another
-/

namespace Spine

/-- What the first call gives when it returns, the second call gives as well. -/
structure Carries {α : Type} (d r : Res α) : Prop where
  same : ∀ x, d = .ok x → r = .ok x

namespace Carries

variable {α β : Type}

theorem refl (a : Res α) : Carries a a := ⟨fun _ h => h⟩

theorem asserts (c c' : Bool) : Carries (spnAssert .debug c) (spnAssert .release c') := by
  constructor
  intro x h
  cases c' <;> rfl

theorem bind {a a' : Res α} {f f' : α → Res β} (h : Carries a a') (hf : ∀ x, Carries (f x) (f' x)) : Carries (a >>= f) (a' >>= f') := by
  constructor
  intro y hy
  obtain ⟨x, h1, h2⟩ := res_bind hy
  rw [h.same x h1]
  exact (hf x).same y h2

theorem ite {c : Prop} [Decidable c] {a a' b b' : Res α} (h : c → Carries a a') (h' : ¬c → Carries b b') : Carries (if c then a else b) (if c then a' else b') := by
  split
  · exact h ‹_›
  · exact h' ‹_›

theorem fails (f : Fault) (r : Res α) : Carries (.error f) r := ⟨fun _ h => nomatch h⟩

end Carries

syntax "carry" "[" term,* "]" : tactic

/-- Both sides are the same but for the build: go through them in step. -/
macro_rules
  | `(tactic| carry [$ts,*]) => do
    let ts := ts.getElems
    `(tactic| repeat' first
      | with_reducible exact Carries.refl _
      | assumption
      | with_reducible exact Carries.asserts _ _
      $[| with_reducible apply $ts:term]*
      | with_reducible apply Carries.bind
      | with_reducible apply Carries.ite
      | (dsimp only)
      | (intro _)
      | split)

end Spine
