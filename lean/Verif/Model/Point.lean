import Mathlib.Data.Nat.Sqrt
import Verif.Core.Outcome
/-!
# Model of the points: `XYZPoint`, `XYPoint`

`/repo/src/spine/structure/point.hpp`. The template parameter is a type with operations `Num`, each of which may be undefined; the functions `sqrt` and `pow` of the C++ library, which
work on `double` or on the type itself, are one of these operations: the square root of a sum of squares, converted to the type.
-/

namespace Spine

/-- What `point.hpp` needs from the type of the coordinates. -/
structure Num (T : Type) where
  zero : T
  add : T → T → Res T
  sub : T → T → Res T
  mul : T → T → Res T
  div : T → T → Res T
  mod : T → T → Res T
  eq : T → T → Bool
  /-- `sqrt(pow(x, 2) + pow(y, 2) + pow(z, 2))`, converted to `T` -/
  hypot : List T → Res T

/-- `XYZPoint`, `point.hpp:10-48`. -/
structure XYZ (T : Type) where
  x : T
  y : T
  z : T
  deriving DecidableEq, Repr

/-- `XYPoint`, `point.hpp:53-87`. -/
structure XY (T : Type) where
  x : T
  y : T
  deriving DecidableEq, Repr

namespace XYZ

variable {T : Type} (N : Num T)

/-- `XYZPoint()`, `point.hpp:13`. -/
def origin : XYZ T := ⟨N.zero, N.zero, N.zero⟩
/-- `operator+`, `point.hpp:16`, and `add`, `point.hpp:24-28`. -/
def add (p o : XYZ T) : Res (XYZ T) := do return ⟨← N.add p.x o.x, ← N.add p.y o.y, ← N.add p.z o.z⟩
/-- `operator-`, `point.hpp:17`, and `subtract`, `point.hpp:29-33`. -/
def sub (p o : XYZ T) : Res (XYZ T) := do return ⟨← N.sub p.x o.x, ← N.sub p.y o.y, ← N.sub p.z o.z⟩
/-- `operator*`, `point.hpp:18`. -/
def mul (p o : XYZ T) : Res (XYZ T) := do return ⟨← N.mul p.x o.x, ← N.mul p.y o.y, ← N.mul p.z o.z⟩
/-- `operator/`, `point.hpp:19`. -/
def div (p o : XYZ T) : Res (XYZ T) := do return ⟨← N.div p.x o.x, ← N.div p.y o.y, ← N.div p.z o.z⟩
/-- `operator%`, `point.hpp:20`. -/
def mod (p o : XYZ T) : Res (XYZ T) := do return ⟨← N.mod p.x o.x, ← N.mod p.y o.y, ← N.mod p.z o.z⟩
/-- `operator==`, `point.hpp:21`. -/
def eq (p o : XYZ T) : Bool := N.eq p.x o.x && N.eq p.y o.y && N.eq p.z o.z
/-- `operator!=`, `point.hpp:22`. -/
def ne (p o : XYZ T) : Bool := !N.eq p.x o.x || !N.eq p.y o.y || !N.eq p.z o.z
/-- `scalar_multiplication`, `point.hpp:34-38`. -/
def scale (p : XYZ T) (s : T) : Res (XYZ T) := do return ⟨← N.mul p.x s, ← N.mul p.y s, ← N.mul p.z s⟩
/-- `mag`, `point.hpp:39`. -/
def mag (p : XYZ T) : Res T := N.hypot [p.x, p.y, p.z]
/-- `normalize`, `point.hpp:40-45`. -/
def normalize (p : XYZ T) : Res (XYZ T) := do
  let m ← p.mag N
  let x ← N.div p.x m
  let y ← N.div p.y m
  let z ← N.div p.z m
  return ⟨x, y, z⟩
/-- `dot`, `point.hpp:46`. -/
def dot (p o : XYZ T) : Res (XYZ T) := do return ⟨← N.mul p.x o.x, ← N.mul p.y o.y, ← N.mul p.z o.z⟩

end XYZ

namespace XY

variable {T : Type} (N : Num T)

/-- `XYPoint()`, `point.hpp:57`. -/
def origin : XY T := ⟨N.zero, N.zero⟩
/-- `operator+`, `point.hpp:60`, and `add`, `point.hpp:68-71`. -/
def add (p o : XY T) : Res (XY T) := do return ⟨← N.add p.x o.x, ← N.add p.y o.y⟩
/-- `operator-`, `point.hpp:61`, and `subtract`, `point.hpp:72-75`. -/
def sub (p o : XY T) : Res (XY T) := do return ⟨← N.sub p.x o.x, ← N.sub p.y o.y⟩
/-- `operator*`, `point.hpp:62`. -/
def mul (p o : XY T) : Res (XY T) := do return ⟨← N.mul p.x o.x, ← N.mul p.y o.y⟩
/-- `operator/`, `point.hpp:63`. -/
def div (p o : XY T) : Res (XY T) := do return ⟨← N.div p.x o.x, ← N.div p.y o.y⟩
/-- `operator%`, `point.hpp:64`. -/
def mod (p o : XY T) : Res (XY T) := do return ⟨← N.mod p.x o.x, ← N.mod p.y o.y⟩
/-- `operator==`, `point.hpp:65`. -/
def eq (p o : XY T) : Bool := N.eq p.x o.x && N.eq p.y o.y
/-- `operator!=`, `point.hpp:66`. -/
def ne (p o : XY T) : Bool := !N.eq p.x o.x || !N.eq p.y o.y
/-- `scalar_multiplication`, `point.hpp:76-79`. -/
def scale (p : XY T) (s : T) : Res (XY T) := do return ⟨← N.mul p.x s, ← N.mul p.y s⟩
/-- `mag`, `point.hpp:80`. -/
def mag (p : XY T) : Res T := N.hypot [p.x, p.y]
/-- `normalize`, `point.hpp:81-85`. -/
def normalize (p : XY T) : Res (XY T) := do
  let m ← p.mag N
  let x ← N.div p.x m
  let y ← N.div p.y m
  return ⟨x, y⟩
/-- `dot`, `point.hpp:86`. -/
def dot (p o : XY T) : Res (XY T) := do return ⟨← N.mul p.x o.x, ← N.mul p.y o.y⟩

end XY

/-- A value of `int`, of 32 bits; overflow is undefined. -/
def int32 (n : Int) : Res Int := if -2 ^ 31 ≤ n ∧ n < 2 ^ 31 then .ok n else .error .ub

/-- `int` coordinates. Division truncates and is undefined for 0. The square root is computed in `double` and cut off; the rounding in `double`, which matters only for
coordinates above 2^25, is left out, the overflow of the conversion to `int` is not. -/
def Num.int : Num Int where
  zero := 0
  add := fun a b => int32 (a + b)
  sub := fun a b => int32 (a - b)
  mul := fun a b => int32 (a * b)
  div := fun a b => if b = 0 then .error .ub else int32 (a.tdiv b)
  mod := fun a b => if b = 0 ∨ (a = -2 ^ 31 ∧ b = -1) then .error .ub else .ok (a.tmod b)
  eq := fun a b => a == b
  hypot := fun l => int32 (Nat.sqrt (l.map fun x => x.natAbs ^ 2).sum : Nat)

end Spine
