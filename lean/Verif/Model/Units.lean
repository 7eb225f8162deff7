import Verif.Core.Outcome
import Verif.Core.Float32
/-!
# Model of `spn::structure::units::Unit` for kernel time

`/repo/src/spine/structure/units/primitives/unit.hpp`, instantiated as in `units/time.hpp:25-30` with
`ValueType = time_t` (`raw_types.hpp:8`), here a signed 64 bit integer (see `Narrow.lean` for 32 bits).  A value is the raw integer;
the magnitude tag is a separate argument, since C++ carries it in the type.  The conversion `from_other` computes in
`float`, which is IEEE binary32 (`Verif/Core/Float32.lean`).  Signed overflow and float to integer conversions which do
not fit are undefined behaviour.
-/

namespace Spine

open F32

/-- The magnitude tags used for kernel time, `units/time.hpp:25-30`. -/
inductive Mag
  | micro
  | milli
  | base
  | minute
  | hour
  | day
  deriving DecidableEq, Repr

/-- `Magnitude`, `units/primitives/magnitudes.hpp:19, :22, :56, :61, :64, :67`: literals and products, evaluated in
`float`. -/
def Mag.magnitude : Mag → Rat
  | .micro => rnd (1 / 1000000)
  | .milli => rnd (1 / 1000)
  | .base => rnd 1
  | .minute => rnd 60
  | .hour => rnd (rnd 60 * rnd 60)
  | .day => rnd (rnd (rnd 60 * rnd 60) * rnd 24)

/-- Store the result of a computation in a `time_t`. -/
def i64 (n : Int) : Res Int :=
  if -2 ^ 63 ≤ n ∧ n < 2 ^ 63 then .ok n else .error .ub

namespace KTime

/-- `constexpr float ratio`, `unit.hpp:140`. -/
def ratio (other mine : Mag) : Rat := rnd (other.magnitude / mine.magnitude)

/-- `from_other`, `unit.hpp:138-143`, integral case: `other.raw()` is converted to `float`, multiplied, rounded by
`std::round` (which is exact on floats), and converted back. -/
def fromOther (other mine : Mag) (v : Int) : Res Int :=
  i64 (roundAway (rnd (ratio other mine * rnd v)))

/-- Converting constructor and assignment, `unit.hpp:36-48`. -/
def convert (other mine : Mag) (v : Int) : Res Int := fromOther other mine v

/-- `operator+` and `+=`, `unit.hpp:50-53`, `:64-68`. -/
def add (mine other : Mag) (v w : Int) : Res Int := do i64 (v + (← fromOther other mine w))

/-- `operator-` and `-=`, `unit.hpp:54-57`, `:59-63`. -/
def sub (mine other : Mag) (v w : Int) : Res Int := do i64 (v - (← fromOther other mine w))

/-- `operator+=(other)`, `unit.hpp:64-68`: the new value. -/
def addAssign (mine other : Mag) (v w : Int) : Res Int := do i64 (v + (← fromOther other mine w))

/-- `operator-=(other)`, `unit.hpp:59-63`: the new value. -/
def subAssign (mine other : Mag) (v w : Int) : Res Int := do i64 (v - (← fromOther other mine w))

/-- Unary minus, `unit.hpp:58`. -/
def neg (v : Int) : Res Int := i64 (-v)

/-- Scaling by an integer, `unit.hpp:81-89`. -/
def scale (v k : Int) : Res Int := i64 (v * k)

/-- Division by an integer, `unit.hpp:90-100`. -/
def divide (v k : Int) : Res Int :=
  if k = 0 then .error .exception else i64 (v.tdiv k)

/-- Division by another time, `unit.hpp:74-79`. -/
def divTime (mine other : Mag) (v w : Int) : Res Int := do
  let x ← fromOther other mine w
  if x = 0 then .error .exception else i64 (v.tdiv x)

/-- `operator==`, `unit.hpp:102-106`. -/
def eq (mine other : Mag) (v w : Int) : Res Bool := do return decide (v = (← fromOther other mine w))

/-- `operator!=`, `unit.hpp:107-110`. -/
def ne (mine other : Mag) (v w : Int) : Res Bool := do return !(← eq mine other v w)

/-- `operator<`, `unit.hpp:111-114`. -/
def lt (mine other : Mag) (v w : Int) : Res Bool := do return decide (v < (← fromOther other mine w))

/-- `operator>`, `unit.hpp:115-118`. -/
def gt (mine other : Mag) (v w : Int) : Res Bool := do return decide (v > (← fromOther other mine w))

/-- `operator<=`, `unit.hpp:119-122`. -/
def le (mine other : Mag) (v w : Int) : Res Bool := do return decide (v ≤ (← fromOther other mine w))

/-- `operator>=`, `unit.hpp:123-126`. -/
def ge (mine other : Mag) (v w : Int) : Res Bool := do return decide (v ≥ (← fromOther other mine w))

end KTime
end Spine
