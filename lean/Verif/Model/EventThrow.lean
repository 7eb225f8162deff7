import Verif.Model.EventSystem
/-!
# Model of handlers that throw

`/repo/src/spine/eventsystem/eventsystem.cpp:63-88` has no `try`: an exception thrown by a handler leaves `trigger` and `loop`, whose local handles are released on the way. The model
follows `Verif/Model/EventSystem.lean`; computations end by returning (`false`) or by throwing (`true`). What a handler does is a program `ThrowProg`, which can throw and can catch what the
calls of `trigger` and `loop` that it makes throw.

Not modelled: exceptions of the library itself and of the standard library (they end the run, as `Fault.exception`).
-/

namespace Spine

/-- What a program does with the event system. -/
inductive ThrowProg (ω δ H : Type)
  | done
  /-- throw an exception -/
  | throw
  /-- read the clock -/
  | now (k : Int → ThrowProg ω δ H)
  /-- take time -/
  | wait (ms : Nat) (k : ThrowProg ω δ H)
  /-- `schedule(id, delay, data)` -/
  | schedule (id : Nat) (delay : Int) (data : δ) (k : ThrowProg ω δ H)
  /-- `trigger(id, data)`; what happens next may depend on whether it threw.  Without a `try`, `k true` is `throw`. -/
  | trigger (id : Nat) (data : δ) (k : Bool → ThrowProg ω δ H)
  /-- `event(id, delay, data)`, keeping the handle -/
  | event (id : Nat) (delay : Int) (data : δ) (k : Option ω → ThrowProg ω δ H)
  /-- `schedule(std::move(handle))` -/
  | submit (o : ω) (k : ThrowProg ω δ H)
  /-- drop a handle -/
  | drop (o : ω) (k : ThrowProg ω δ H)
  /-- `attach(id, handler)` -/
  | attach (id : Nat) (h : Option H) (k : ThrowProg ω δ H)
  /-- `loop()`; as for `trigger` -/
  | loop (k : Bool → ThrowProg ω δ H)

/-- What a handler does when called with an event, depending on everything that happened before. -/
abbrev ThrowBehaviour (ω δ H : Type) := H → List (Entry δ H) → Event δ → ThrowProg ω δ H

namespace ES

variable {ω δ H : Type} [DecidableEq ω] (b : Build)

variable (s : ES ω δ H)

/-- `trigger(id, data)`, `eventsystem.hpp:129-133` and `eventsystem.cpp:58-61`; the handle is released when the call returns and when it throws. -/
def triggerIdT (call : ES ω δ H → Event δ → Res (Bool × ES ω δ H)) (id : Nat) (data : δ) : Res (Bool × ES ω δ H) := do
  let (x, s) ← s.fetch b id 0 data
  spnAssert b x.isSome
  let o ← deref x
  let (t, s) ← call (s.hold o) (s.pipe.heap o)
  return (t, s.unhold o)

/-- Run a program; `call` is `trigger(const Event&)` and `poll` is `loop()`. -/
def execT (call : ES ω δ H → Event δ → Res (Bool × ES ω δ H)) (poll : ES ω δ H → Res (Bool × ES ω δ H)) : ES ω δ H → ThrowProg ω δ H → Res (Bool × ES ω δ H)
  | s, .done => .ok (false, s)
  | s, .throw => .ok (true, s)
  | s, .now k => execT call poll s (k s.clock)
  | s, .wait ms k => execT call poll { s with clock := s.clock + ms } k
  | s, .schedule id delay data k => do execT call poll (← s.schedule b id delay data) k
  | s, .trigger id data k => do
    let (t, s) ← s.triggerIdT b call id data
    execT call poll s (k t)
  | s, .event id delay data k => do
    let (x, s) ← s.event b id delay data
    execT call poll s (k x)
  | s, .submit o k => do
    let s ← s.give o
    execT call poll (← s.enqueue b (some o)) k
  | s, .drop o k => do execT call poll (← s.give o) k
  | s, .attach id h k => do execT call poll (← s.attach b id h) k
  | s, .loop k => do
    let (t, s) ← poll s
    execT call poll s (k t)

/-- One call of a handler, `eventsystem.cpp:69`. -/
def handleT (beh : ThrowBehaviour ω δ H) (call : ES ω δ H → Event δ → Res (Bool × ES ω δ H)) (poll : ES ω δ H → Res (Bool × ES ω δ H)) (depth : Nat)
    (e : Event δ) (s : ES ω δ H) (x : Option H) : Res (Bool × ES ω δ H) := do
  let h ← deref x
  execT b call poll { s with trace := .called h e depth s.clock :: s.trace } (beh h s.trace e)

/-- The range-based `for` of `trigger(const Event&)`, `eventsystem.cpp:68-70`: an exception ends it. -/
def visitT (f : ES ω δ H → Option H → Res (Bool × ES ω δ H)) (id : Nat) : Nat → Nat → ES ω δ H → Res (Bool × ES ω δ H)
  | 0, _, s => .ok (false, s)
  | n + 1, i, s => do
    let v ← rd s.map id
    let x ← rd v.store i
    let (t, s) ← f s x
    if t then return (true, s) else visitT f id n (i + 1) s

/-- The `while` loop of `loop()`, `eventsystem.cpp:74-80`: an exception ends it; `future` and `event` are destroyed on the way. -/
def drainT (call : ES ω δ H → Event δ → Res (Bool × ES ω δ H)) (depth : Nat) : Nat → ES ω δ H → Res (Bool × ES ω δ H)
  | 0, _ => .error .fuel
  | fuel + 1, s => do
    let (due, pipe) ← s.pipe.containsExpired b s.clock
    let s := { s with pipe }
    if due then
      let (x, pipe) ← s.pipe.expire b s.clock
      spnAssert b x.isSome
      let o ← deref x
      let e := pipe.heap o
      let s := { s.hold o with pipe, trace := .fired e s.clock depth :: s.trace }
      let (t, s) ← call s e
      if t then return (true, s.unhold o) else drainT call depth fuel (s.unhold o)
    else return (false, s)

/-- `loop()`, `eventsystem.cpp:73-88`: after an exception it does not sleep. -/
def loopT (call : ES ω δ H → Event δ → Res (Bool × ES ω δ H)) (depth fuel : Nat) (s : ES ω δ H) : Res (Bool × ES ω δ H) := do
  let (t, s) ← s.drainT b call depth fuel
  if t then return (true, s) else return (false, ← s.sleep b)

/-- `trigger(const Event&)`, `eventsystem.cpp:63-71`; `fuel` bounds the nesting, and `rounds` the rounds of every `loop()` called by a handler. -/
def triggerT (beh : ThrowBehaviour ω δ H) (rounds : Nat) : Nat → Nat → ES ω δ H → Event δ → Res (Bool × ES ω δ H)
  | 0, _, _, _ => .error .fuel
  | fuel + 1, depth, s, e => do
    spnAssert b (decide (e.id < s.map.length))
    let v ← rd s.map e.id
    spnAssert b (!v.empty)
    visitT (handleT b beh (triggerT beh rounds fuel (depth + 1)) (fun s => s.loopT b (triggerT beh rounds fuel (depth + 1)) (depth + 1) rounds) depth e) e.id v.size v.head s

/-- The program does something: `loop()` is `loopT` with handlers at depth 0. -/
def runT (beh : ThrowBehaviour ω δ H) (nest fuel : Nat) (p : ThrowProg ω δ H) : Res (Bool × ES ω δ H) :=
  s.execT b (triggerT b beh fuel nest 0) (fun s => s.loopT b (triggerT b beh fuel nest 0) 0 fuel) p

end ES
end Spine
