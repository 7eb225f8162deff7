import Verif.Model.Timers
import Verif.Model.Pool
import Verif.Spec.Agenda
/-!
# Model of `spn::eventsystem::Future` and `spn::eventsystem::Pipeline`

`/repo/src/spine/eventsystem/pipeline.hpp` and `pipeline.cpp`, on the vector and timer models.

Futures live in objects named by `ω`, their contents are in `heap`; the pipeline keeps `std::shared_ptr`s to them
(`none` is the null pointer).  The only futures the library creates are `Event`s (`eventsystem.hpp:27`), so the object carries
the members of `Event` too.  `HAL::millis()` is an argument.  `Pipeline::to_string` is in `PipelineText.lean`.
-/

namespace Spine

variable {ω δ : Type}

/-- `a < b` for `k_time_ms`. -/
abbrev msLt (a b : Int) : Res Bool := KTime.lt .milli .milli a b

/-- An event object: `Future`, `pipeline.hpp:38`, `:43`, and `Event`, `eventsystem.hpp:61-62`.  `δ` is `Event::Data`. -/
structure Event (δ : Type) where
  /-- `_time_from_now` -/
  timeFromNow : Int
  /-- `_timer` -/
  timer : Alarm
  /-- `_id` -/
  id : Nat
  /-- `_data` -/
  data : δ
  /-- ghost: the number of events scheduled before this one -/
  seq : Nat
  deriving DecidableEq, Repr

/-- Follow a pointer. -/
def deref : Option ω → Res ω
  | some o => .ok o
  | none => .error .ub

/-- `Future::reschedule(t)`, `pipeline.cpp:9-13`. -/
def Event.reschedule (b : Build) (e : Event δ) (t now : Int) : Res (Event δ) := do
  let given ← KTime.ne .milli .milli t 0
  let d := if given then t else e.timeFromNow
  let positive ← msGt d 0
  spnAssert b positive
  let timer ← Alarm.create b now d false
  return { e with timeFromNow := d, timer }

/-- `Pipeline`, `pipeline.hpp:76`, and the objects it points to. -/
structure Pipe (ω δ : Type) where
  /-- `_pipe` -/
  vec : Vec (Option ω)
  /-- the event objects -/
  heap : ω → Event δ

namespace Pipe

variable [DecidableEq ω] (b : Build) (p : Pipe ω δ)

/-- Change an object. -/
def store (o : ω) (e : Event δ) : Pipe ω δ := { p with heap := fun x => if x = o then e else p.heap x }

/-- `contains_futures()`, `pipeline.hpp:64`. -/
def containsFutures : Bool := !p.vec.empty

/-- `Future::expired()`, `pipeline.hpp:29`, through a pointer. -/
def expired (x : Option ω) (now : Int) : Res (Bool × Pipe ω δ) := do
  let o ← deref x
  let (r, timer) ← (p.heap o).timer.poll now
  return (r, p.store o { p.heap o with timer })

/-- `contains_expired_futures()`, `pipeline.hpp:61`. -/
def containsExpired (now : Int) : Res (Bool × Pipe ω δ) :=
  if p.containsFutures then do
    let x ← p.vec.peekFront b
    p.expired x now
  else .ok (false, p)

/-- `time_until_next_future()`, `pipeline.cpp:49-56`. -/
def timeUntilNext (now : Int) : Res Int :=
  if !p.containsFutures then .ok 0
  else do
    let o ← deref (← p.vec.peekFront b)
    let future := (p.heap o).timer.future
    if ← msLe future now then return 0 else msSub future now

/-- `spn_assert(future->expired())`, `pipeline.cpp:64`: only evaluated in debug builds. -/
def assertExpired (x : Option ω) (now : Int) : Res (Pipe ω δ) :=
  match b with
  | .release => .ok p
  | .debug => do
    let (r, p) ← p.expired x now
    spnAssert .debug r
    return p

/-- `expire()`, `pipeline.cpp:58-67`.  The pointer is moved out of the pipe; the caller gets it, or it is dropped when null is
returned. -/
def expire (now : Int) : Res (Option ω × Pipe ω δ) := do
  spnAssert b (!p.vec.empty)
  if p.vec.empty then return (none, p)
  else
    let (x, vec) ← p.vec.popFront b (sharedPtr ω) true
    let p := { p with vec }
    spnAssert b x.isSome
    let p ← p.assertExpired b x now
    let (r, p) ← p.expired x now
    return (if r then x else none, p)

/-- The loop of `push`, `pipeline.cpp:73-82`: the index of the first pending future which is further away than the new one.
`it` is the iterator, `reads i` the two readings of the clock made in round `i`. -/
def scan (new : ω) (reads : Nat → Int × Int) (it i : Nat) : Nat → Res (Option Nat)
  | 0 => .error .fuel
  | fuel + 1 =>
    if it = p.vec.tail then .ok none
    else do
      let other ← deref (← rd p.vec.store it)
      let mine ← (p.heap new).timer.timeFromNow (reads i).1
      let others ← (p.heap other).timer.timeFromNow (reads i).2
      if ← msLt mine others then return some i
      else scan new reads (uadd it 1) (i + 1) fuel

/-- Put the new future where the loop says, `pipeline.cpp:75-83`. -/
def place (new : ω) (at? : Option Nat) : Res (Pipe ω δ) :=
  match at? with
  | some i => do
    let vec ← p.vec.insert b (sharedPtr ω) i (some new)
    spnAssert b (decide (p.vec.size + 1 = vec.size))
    return { p with vec }
  | none => do
    let vec ← p.vec.pushBack b (sharedPtr ω) (some new)
    return { p with vec }

/-- `push`, `pipeline.cpp:69-84`.  `Vector::insert` and `push_back` copy the pointer (`vector.hpp:221`, `:133`), the caller's
temporary goes away.  `now` is the reading made by `reschedule`. -/
def push (x : Option ω) (now : Int) (reads : Nat → Int × Int) : Res (Pipe ω δ) := do
  spnAssert b (decide (p.vec.size < p.vec.maxSize))
  let o ← deref x
  let e ← (p.heap o).reschedule b 0 now
  let p := p.store o e
  let at? ← p.scan o reads p.vec.head 0 (p.vec.size + 1)
  p.place b o at?

/-- A call made by a user of a stand-alone pipeline; a pushed future was made with the given delay (`Future(delay)`,
`pipeline.cpp:7`).  The clock stands still during a call. -/
def step (op : Agenda.Op ω) : Res (Agenda.Out ω × Pipe ω δ) :=
  match op with
  | .push now o delay => do
    let p ← (p.store o { p.heap o with timeFromNow := delay }).push b (some o) now (fun _ => (now, now))
    return (.unit, p)
  | .expire now => do
    let (x, p) ← p.expire b now
    return (.obj (← deref x), p)
  | .due now => do
    let (r, p) ← p.containsExpired b now
    return (.bool r, p)
  | .next now => do return (.time (← p.timeUntilNext b now), p)

/-- A history of calls. -/
def run (p : Pipe ω δ) : List (Agenda.Op ω) → Res (List (Agenda.Out ω) × Pipe ω δ)
  | [] => .ok ([], p)
  | op :: ops => do
    let (o, p) ← p.step b op
    let (os, p) ← run p ops
    return (o :: os, p)

end Pipe
end Spine
