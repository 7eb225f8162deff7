import Verif.Spec.Cyclic
/-!
# Specification of periodic tasks with a clock that is read with an error

As `Cyclic`, but deadlines are compared with `see clock` instead of `clock`. With the identity it is `Cyclic`.
-/

namespace Spine

namespace Cyclic

/-- Call the tasks that appear to be due, in order; each is due again one period later. -/
def serveSeen (see : Int → Int) (period : Nat → Int) (st : State) : State :=
  let due := st.tasks.takeWhile fun z => decide (z.deadline ≤ see st.clock)
  { st with tasks := due.foldl (fun l x => insert ⟨x.id, st.clock + period x.id⟩ l) (st.tasks.dropWhile fun z => decide (z.deadline ≤ see st.clock))
            calls := st.calls ++ due.map fun x => (x.id, st.clock) }

/-- Sleep for as long as it appears to be until the next task is due, but not longer than `nap`; without `nap`, do not sleep. -/
def sleepSeen (see : Int → Int) (nap : Option Int) (st : State) : State :=
  match nap, st.tasks with
  | some most, x :: _ => { st with clock := st.clock + max 0 (min (x.deadline - see st.clock) most) }
  | _, _ => st

/-- Spend `w` ms elsewhere, then look for tasks that are due. -/
def roundSeen (see : Int → Int) (period : Nat → Int) (nap : Option Int) (st : State) (w : Nat) : State :=
  sleepSeen see nap (serveSeen see period { st with clock := st.clock + w })

/-- Round after round. -/
def runSeen (see : Int → Int) (period : Nat → Int) (nap : Option Int) (st : State) (ws : List Nat) : State := ws.foldl (roundSeen see period nap) st

/-- Times of calls of a task of period `T` that is first due at `d`: no call is early by more than `σ`, none is late by more than `L + σ`, and the next one is due
`T` after a call.  At last the task is due at `e`. -/
def PacedSeen (T L σ d : Int) : List Int → Int → Prop
  | [], e => e = d
  | c :: cs, e => d - σ ≤ c ∧ c ≤ d + L + σ ∧ PacedSeen T L σ (c + T) cs e

end Cyclic
end Spine
