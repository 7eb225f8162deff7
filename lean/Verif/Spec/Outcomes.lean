import Verif.Core.Outcome
/-!
# Outcomes

What a `Result` stands for: one of four states, with a value of the state's own type.
-/

namespace Spine

/-- The outcome of a computation. -/
inductive Outcome (T E I : Type)
  | none
  | success (x : T)
  | failure (x : E)
  | ongoing (x : I)

/-- Steps that all yield ongoing results take `a` to `b` and the world from `w` to `w'`. A step yields an outcome and a new world, or fails. -/
inductive Continues {T E I σ : Type} : I → σ → List (I → σ → Res (Outcome T E I × σ)) → I → σ → Prop
  | nil (a : I) (w : σ) : Continues a w [] a w
  | cons {a a' b : I} {w w' w'' : σ} {f : I → σ → Res (Outcome T E I × σ)} {fs : List (I → σ → Res (Outcome T E I × σ))} (h : f a w = .ok (.ongoing a', w'))
      (hs : Continues a' w' fs b w'') : Continues a w (f :: fs) b w''

/-- The final outcomes. -/
def Outcome.Final {T E I : Type} : Outcome T E I → Prop
  | .success _ => True
  | .failure _ => True
  | _ => False

end Spine
