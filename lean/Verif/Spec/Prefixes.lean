import Verif.Model.Magnitudes
import Mathlib.Algebra.Order.Field.Power
/-!
# Specification of the magnitudes

The SI prefixes as powers of ten, and the lengths of the units of time in seconds. A month has four weeks, a year 365 days.
-/

namespace Spine

/-- The exponent of an SI prefix. -/
def Tag.exponent : Tag → Option Int
  | .atto => some (-18)
  | .femto => some (-15)
  | .pico => some (-12)
  | .nano => some (-9)
  | .micro => some (-6)
  | .milli => some (-3)
  | .centi => some (-2)
  | .deci => some (-1)
  | .base => some 0
  | .deca => some 1
  | .hecto => some 2
  | .kilo => some 3
  | .mega => some 6
  | .giga => some 9
  | .tera => some 12
  | .peta => some 15
  | .exa => some 18
  | _ => none

/-- The unit with this tag in base units. -/
def Tag.exact (t : Tag) : Rat :=
  match t.exponent with
  | some e => 10 ^ e
  | none =>
    match t with
    | .minute => 60
    | .hour => 3600
    | .day => 86400
    | .week => 7 * 86400
    | .month => 28 * 86400
    | .year => 365 * 86400
    | _ => 1

/-- The result of converting a raw value from one unit to another. -/
def Tag.converted (a b : Tag) (v : Rat) : Rat := a.exact * v / b.exact

end Spine
