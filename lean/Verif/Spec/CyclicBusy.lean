import Verif.Spec.CyclicLate
/-!
# Specification of periodic tasks that take time

As `Cyclic`, but a call takes time, and its task is due again a period after the end of the call.
-/

namespace Spine

namespace Cyclic

/-- Call the tasks that appear to be due one after the other, at most `n` of them. -/
def serveBusy (see : Int → Int) (period : Nat → Int) (cost : Nat → Nat) : Nat → State → State
  | 0, st => st
  | n + 1, st =>
    match st.tasks with
    | [] => st
    | x :: l =>
      if x.deadline ≤ see st.clock then
        serveBusy see period cost n ⟨st.clock + cost x.id, insert ⟨x.id, st.clock + cost x.id + period x.id⟩ l, st.calls ++ [(x.id, st.clock)]⟩
      else st

/-- Spend `w` ms elsewhere, then look for tasks that are due. -/
def roundBusy (see : Int → Int) (period : Nat → Int) (cost : Nat → Nat) (nap : Option Int) (n : Nat) (st : State) (w : Nat) : State :=
  sleepSeen see nap (serveBusy see period cost n { st with clock := st.clock + w })

/-- Round after round. -/
def runBusy (see : Int → Int) (period : Nat → Int) (cost : Nat → Nat) (nap : Option Int) (n : Nat) (st : State) (ws : List Nat) : State :=
  ws.foldl (roundBusy see period cost nap n) st

/-- The tasks with the given ids need no more than `B` ms, if all become due at once and again as often as they can within these `B` ms: a task that takes `cost` and is due again
`period` later, or `σ` earlier, is called at most `B / (cost + period - σ) + 1` times. -/
def Fits (period : Nat → Int) (cost : Nat → Nat) (σ B : Int) (ids : List Nat) : Prop :=
  (ids.map fun i => (cost i : Int) * (B / (cost i + period i - σ) + 1)).sum ≤ B

/-- How many calls that are at most. -/
def mostCalls (period : Nat → Int) (cost : Nat → Nat) (σ B : Int) (ids : List Nat) : Int := (ids.map fun i => B / (cost i + period i - σ) + 1).sum

end Cyclic
end Spine
