import Verif.Model.Vector
import Verif.Model.Array
/-!
# Model of what a `Vector` inherits from `Array`

`/repo/src/spine/structure/vector.hpp:19` derives publicly; the members below are not redeclared in `Vector` and not virtual in `Array`, so on a
vector, and on a vector passed as `Array&`, they work on the whole storage.
-/

namespace Spine.Vec

variable {α : Type}

/-- `at(index)`, `array.hpp:199-202`. -/
def atIndex (v : Vec α) (index : Nat) : Res α := rd v.store index

/-- `data()[index]`, `array.hpp:224-232`. -/
def dataAt (v : Vec α) (index : Nat) : Res α := rd v.store index

/-- A loop from `cbegin()` to `cend()`, `array.hpp:258-266`; also a loop over `Array&` that refers to the vector, `array.hpp:236-254`. -/
def constForward (v : Vec α) (fuel : Nat) : Res (List α) := ArrIter.forward v.store fuel

/-- A loop from `crbegin()` to `crend()`, `array.hpp:292-300`. -/
def constReverse (v : Vec α) (fuel : Nat) : Res (List α) := ArrIter.reverseConst v.store fuel

end Spine.Vec
