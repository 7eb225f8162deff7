import Verif.Model.Compound
/-!
# Model of the product of two units

`operator*` of `/repo/src/spine/structure/units/primitives/unit.hpp:69-73`, which is marked as unstable there: the result has the type of the left operand.
-/

namespace Spine

/-- `operator*` with a unit, `unit.hpp:69-73`, for a floating point value type. -/
def RUnit.mul {F : Type} [Arith F] (mine other v w : F) : F := Arith.mul v (RUnit.fromOther other mine w)

/-- `operator*` with a unit, `unit.hpp:69-73`, for kernel times. -/
def KTime.mulTime (mine other : Mag) (v w : Int) : Res Int := do i64 (v * (← KTime.fromOther other mine w))

end Spine
