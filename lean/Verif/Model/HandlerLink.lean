import Verif.Core.Outcome
/-!
# The link from an `EventHandler` to its event system, `/repo/src/spine/eventsystem/eventsystem.hpp:68-88`

Event systems are named by numbers, their addresses; `none` is the null pointer.
-/

namespace Spine

/-- `EventHandler`: `_evsys`, `eventsystem.hpp:87`. -/
structure HandlerLink where
  evsys : Option Nat

namespace HandlerLink

/-- `EventHandler(evsys)`, `eventsystem.hpp:70`. -/
def create (e : Option Nat) : HandlerLink := ⟨e⟩

/-- `attach_event_system(evsys)`, `eventsystem.hpp:74-78`. -/
def attachSystem (b : Build) (s : HandlerLink) (e : Option Nat) : Res HandlerLink := do
  spnAssert b s.evsys.isNone
  spnAssert b e.isSome
  return { s with evsys := e }

/-- `evsys()`, `eventsystem.hpp:81-84`. -/
def system (b : Build) (s : HandlerLink) : Res (Option Nat) := do
  spnAssert b s.evsys.isSome
  return s.evsys

/-- A member function called through the pointer that `evsys()` returned, such as `evsys()->schedule(...)`: the event system it is called on. -/
def use (b : Build) (s : HandlerLink) : Res Nat := do
  match ← s.system b with
  | some e => return e
  | none => .error .ub

/-- What a program does with a handler. -/
inductive Op
  | attach (e : Option Nat)
  | use

/-- A history; the event systems that the handler used, in order. -/
def run (b : Build) (s : HandlerLink) : List Op → Res (HandlerLink × List Nat)
  | [] => .ok (s, [])
  | .attach e :: ops => do run b (← s.attachSystem b e) ops
  | .use :: ops => do
    let e ← s.use b
    let (s', es) ← run b s ops
    return (s', e :: es)

end HandlerLink
end Spine
