import Verif.Model.Compound
/-!
# Model of the magnitudes of units

`/repo/src/spine/structure/units/primitives/magnitudes.hpp`. Products are evaluated in `float`.
-/

namespace Spine

/-- The tags, `magnitudes.hpp:6-77`. -/
inductive Tag
  | atto | femto | pico | nano | micro | milli | centi | deci | deca | hecto | kilo | mega | giga | tera | peta | exa
  | base | minute | hour | day | week | month | year
  deriving DecidableEq, Repr

namespace Tag

/-- `Day::Magnitude`, `magnitudes.hpp:67-69`. -/
def dayMagnitude : Fl := Fl.mul (Fl.mul (Fl.ofRat 60) (Fl.ofRat 60)) (Fl.ofRat 24)

/-- `Week::Magnitude`, `magnitudes.hpp:70-72`. -/
def weekMagnitude : Fl := Fl.mul dayMagnitude (Fl.ofRat 7)

/-- `Magnitude`, `magnitudes.hpp:6-77`. -/
def magnitude : Tag → Fl
  | .atto => Fl.ofRat (1 / 1000000000000000000)
  | .femto => Fl.ofRat (1 / 1000000000000000)
  | .pico => Fl.ofRat (1 / 1000000000000)
  | .nano => Fl.ofRat (1 / 1000000000)
  | .micro => Fl.ofRat (1 / 1000000)
  | .milli => Fl.ofRat (1 / 1000)
  | .centi => Fl.ofRat (1 / 100)
  | .deci => Fl.ofRat (1 / 10)
  | .deca => Fl.ofRat 10
  | .hecto => Fl.ofRat 100
  | .kilo => Fl.ofRat 1000
  | .mega => Fl.ofRat 1000000
  | .giga => Fl.ofRat 1000000000
  | .tera => Fl.ofRat 1000000000000
  | .peta => Fl.ofRat 1000000000000000
  | .exa => Fl.ofRat 1000000000000000000
  | .base => Fl.ofRat 1
  | .minute => Fl.ofRat 60
  | .hour => Fl.mul (Fl.ofRat 60) (Fl.ofRat 60)
  | .day => dayMagnitude
  | .week => weekMagnitude
  | .month => Fl.mul weekMagnitude (Fl.ofRat 4)
  | .year => Fl.mul dayMagnitude (Fl.ofRat 365)

end Tag
end Spine
