import Verif.Spec.History
/-!
# Specification of periodic tasks

What to expect of handlers that schedule their own event again whenever they are called, independently of the model of the event system.
-/

namespace Spine

namespace Cyclic

/-- A task that waits for its next call: the id of its event, and when it is due. -/
structure Task where
  id : Nat
  deadline : Int
  deriving DecidableEq, Repr

/-- Add a task, behind those due at the same time. -/
def insert (x : Task) (l : List Task) : List Task :=
  l.takeWhile (fun z => decide (z.deadline ≤ x.deadline)) ++ x :: l.dropWhile (fun z => decide (z.deadline ≤ x.deadline))

/-- The time, the tasks in order, and the calls so far: task and time, oldest first. -/
structure State where
  clock : Int
  tasks : List Task
  calls : List (Nat × Int)
  deriving DecidableEq, Repr

/-- Call the tasks that are due, in order; each is due again one period later. -/
def serve (period : Nat → Int) (st : State) : State :=
  let due := st.tasks.takeWhile fun z => decide (z.deadline ≤ st.clock)
  { st with tasks := due.foldl (fun l x => insert ⟨x.id, st.clock + period x.id⟩ l) (st.tasks.dropWhile fun z => decide (z.deadline ≤ st.clock))
            calls := st.calls ++ due.map fun x => (x.id, st.clock) }

/-- Sleep until the next task is due, but not longer than `nap`; without `nap`, do not sleep. -/
def sleep (nap : Option Int) (st : State) : State :=
  match nap, st.tasks with
  | some most, x :: _ => { st with clock := st.clock + min (x.deadline - st.clock) most }
  | _, _ => st

/-- Spend `w` ms elsewhere, then look for tasks that are due. -/
def round (period : Nat → Int) (nap : Option Int) (st : State) (w : Nat) : State :=
  sleep nap (serve period { st with clock := st.clock + w })

/-- Round after round. -/
def run (period : Nat → Int) (nap : Option Int) (st : State) (ws : List Nat) : State := ws.foldl (round period nap) st

/-- When a task was called. -/
def callsOf (id : Nat) (calls : List (Nat × Int)) : List Int := (calls.filter fun c => decide (c.1 = id)).map (·.2)

/-- Times of calls of a task of period `T` that is first due at `d`: no call is early, none is late by more than `L`, and the next one is due
`T` after a call.  At last the task is due at `e`. -/
def Paced (T L d : Int) : List Int → Int → Prop
  | [], e => e = d
  | c :: cs, e => d ≤ c ∧ c ≤ d + L ∧ Paced T L (c + T) cs e

end Cyclic

namespace ES

variable {ω δ H : Type}

/-- The calls of handlers: the id of the event and the time, newest first. -/
def callLog : List (Entry δ H) → List (Nat × Int)
  | [] => []
  | .called _ e _ t :: l => (e.id, t) :: callLog l
  | _ :: l => callLog l

/-- How long `loop()` sleeps at most. -/
def nap (cfg : Config) : Option Int := if cfg.delayBetweenTicks then some cfg.maxDelay else none

/-- Spend some time elsewhere and call `loop()`, again and again. -/
def polls : List Nat → Prog ω δ H
  | [] => .done
  | w :: ws => .wait w (.loop (polls ws))

/-- A task: attach a handler to an event and schedule the event. -/
structure Job (δ H : Type) where
  id : Nat
  handler : H
  delay : Int
  data : δ

/-- Start all tasks, then continue. -/
def start (k : Prog ω δ H) : List (Job δ H) → Prog ω δ H
  | [] => k
  | j :: js => .attach j.id (some j.handler) (.schedule j.id j.delay j.data (start k js))

/-- The tasks that are started. -/
def started (now : Int) (js : List (Job δ H)) (l : List Cyclic.Task) : List Cyclic.Task :=
  js.foldl (fun l j => Cyclic.insert ⟨j.id, now + j.delay⟩ l) l

end ES
end Spine
