import Verif.Core.Outcome
import Verif.Core.Arith
/-!
# Model of the data of an event

`Event::Data`, `/repo/src/spine/eventsystem/eventsystem.hpp:33-52` and `eventsystem.cpp:5-31`. Times are the raw numbers of the units.
-/

namespace Spine

/-- The alternatives of `Event::Data::Value`, `eventsystem.hpp:50`. -/
inductive EvValue
  | float (x : Fl)
  | unsigned (n : UInt32)
  | seconds (t : Int64)
  | millis (t : Int64)

/-- `Event::Data`, `eventsystem.hpp:51`. -/
abbrev EvData := Option EvValue

namespace EvData

/-- What the accessors have in common, `eventsystem.cpp:6-9`: two assertions, a default for an empty object, and `std::get`, which throws
`std::bad_variant_access` for another alternative. `get` is `none` for those. -/
def read {α : Type} (b : Build) (get : EvValue → Option α) (default : α) (d : EvData) : Res α := do
  spnAssert b d.isSome
  match d with
  | none => return default
  | some v =>
    spnAssert b (get v).isSome
    match get v with
    | some a => return a
    | none => .error .exception

/-- `value`, `eventsystem.cpp:5-10`. -/
def value (b : Build) (d : EvData) : Res Fl := read b (fun | .float x => some x | _ => none) (.num false 0) d

/-- `unsigned_value`, `eventsystem.cpp:12-17`. -/
def unsignedValue (b : Build) (d : EvData) : Res UInt32 := read b (fun | .unsigned x => some x | _ => none) 0 d

/-- `ms`, `eventsystem.cpp:19-24`. -/
def ms (b : Build) (d : EvData) : Res Int64 := read b (fun | .millis x => some x | _ => none) 0 d

/-- `s`, `eventsystem.cpp:26-31`. -/
def s (b : Build) (d : EvData) : Res Int64 := read b (fun | .seconds x => some x | _ => none) 0 d

end EvData
end Spine
