import Verif.Model.Filter
import Verif.Model.Units
/-!
# Model of real units and compound units

`/repo/src/spine/structure/units/primitives/unit.hpp` for a floating point value type, `compound_unit.hpp` in the same directory, and the conversions of
`/repo/src/spine/structure/units/time.hpp` and `temperature.hpp`. A unit is its raw value; its magnitude is an argument. Not modelled: `SPN_PLATFORM_CAP_DOUBLE`, with which `RealRawType` is
`double`. Throwing by `spn::throw_exception` is an exception (`core/exception.cpp`: the machine's handler, then a halt).
-/

namespace Spine

variable {F : Type} [Arith F]

namespace RUnit

/-- `std::fabs`. -/
def fabs (x : F) : F := if Arith.lt x fzero then Arith.sub fzero x else x

/-- `std::max`. -/
def fmax (a b : F) : F := if Arith.lt a b then b else a

/-- `from_other`, `unit.hpp:138-143`, for floating point: `other` and `mine` are the magnitudes. -/
def fromOther (other mine : F) (v : F) : F := Arith.mul (Arith.div other mine) v

/-- `approximately_equal`, `unit.hpp:129-133`, with the epsilon of `float`. -/
def approxEq (a b : F) : Bool :=
  Arith.le (fabs (Arith.sub a b)) (Arith.mul (Arith.ofRat (1 / 2 ^ 23)) (fmax (fabs a) (fabs b)))

/-- `operator+` and `+=`, `unit.hpp:50-53`, `:64-68`. -/
def add (mine other v w : F) : F := Arith.add v (fromOther other mine w)

/-- `operator-` and `-=`, `unit.hpp:54-57`, `:59-63`. -/
def sub (mine other v w : F) : F := Arith.sub v (fromOther other mine w)

/-- `operator/` by a unit, `unit.hpp:74-79`. -/
def ratio (mine other v w : F) : Res F :=
  let d := fromOther other mine w
  if feq d fzero then .error .exception else .ok (Arith.div v d)

/-- Comparisons, `unit.hpp:102-126`. -/
def eq (mine other v w : F) : Bool := approxEq v (fromOther other mine w)
def ne (mine other v w : F) : Bool := !eq mine other v w
def lt (mine other v w : F) : Bool := Arith.lt v (fromOther other mine w)
def gt (mine other v w : F) : Bool := Arith.lt (fromOther other mine w) v
def le (mine other v w : F) : Bool := Arith.le v (fromOther other mine w)
def ge (mine other v w : F) : Bool := Arith.le (fromOther other mine w) v

/-- `operator/` and `/=` by a number, `unit.hpp:90-100`. -/
def divide (v scalar : F) : Res F := if feq scalar fzero then .error .exception else .ok (Arith.div v scalar)

/-- `to_celsius(kelvin)`, `temperature.hpp:21`. -/
def toCelsius (t : F) : F := Arith.sub t (Arith.ofRat (27315 / 100))

/-- `to_kelvin(celsius)`, `temperature.hpp:25`. -/
def toKelvin (t : F) : F := Arith.add t (Arith.ofRat (27315 / 100))

/-- `std::ceil` on `float`: exact. -/
def ceil : Fl → Fl
  | .num s m => .num s (if s then (⌊m⌋ : Int) else (⌈m⌉ : Int))
  | x => x

/-- Conversion of a `float` to a 64-bit `time_t`: truncation, undefined outside of the range. -/
def toTime : Fl → Res Int
  | .num s m => i64 (if s then -⌊m⌋ else ⌊m⌋)
  | _ => .error .ub

/-- `to_kernel_time` with its default rounding function, `time.hpp:37-41`. -/
def toKernelTime (v : Fl) : Res Int := toTime (ceil v)

/-- `to_real_time`, `time.hpp:45-48`. -/
def toRealTime (v : Int) : Fl := Fl.ofRat v

end RUnit

/-- `CompoundUnit`, `compound_unit.hpp:229-230`. -/
structure Compound (F : Type) where
  num : F
  den : F
  deriving DecidableEq

namespace Compound

/-- The default constructor, `compound_unit.hpp:71` with `unit.hpp:136`. -/
def create : Compound F := ⟨fzero, fzero⟩

/-- `raw`, `compound_unit.hpp:99-102`. -/
def raw (a : Compound F) : Res F := if feq a.den fzero then .error .exception else .ok (Arith.div a.num a.den)

/-- `NumeratorUnit(other.numerator())`, `compound_unit.hpp:123-124`: a copy for the same type (`none`), otherwise a conversion from one magnitude to the
other. -/
def conv (k : Option (F × F)) (x : F) : F :=
  match k with
  | none => x
  | some (other, mine) => RUnit.fromOther other mine x

/-- The converting constructor and assignment, `compound_unit.hpp:83-94`. -/
def convert (kn kd : Option (F × F)) (b : Compound F) : Compound F := ⟨conv kn b.num, conv kd b.den⟩

/-- `operator+=`, `operator+`, `compound_unit.hpp:116-137`. -/
def add (kn kd : Option (F × F)) (a b : Compound F) : Compound F :=
  let cn := conv kn b.num
  let cd := conv kd b.den
  ⟨Arith.add (Arith.mul a.num cd) (Arith.mul cn a.den), Arith.mul a.den cd⟩

/-- `operator-=`, `operator-`, `compound_unit.hpp:143-163`; the difference of units of the same magnitude multiplies by a ratio of 1. -/
def sub (kn kd : Option (F × F)) (a b : Compound F) : Compound F :=
  let cn := conv kn b.num
  let cd := conv kd b.den
  ⟨Arith.sub (Arith.mul a.num cd) (Arith.mul (Arith.ofRat 1) (Arith.mul cn a.den)), Arith.mul a.den cd⟩

/-- Unary minus, `compound_unit.hpp:164`, `unit.hpp:58`; `-x` is `-1 * x`. -/
def neg (a : Compound F) : Compound F := ⟨a.num, Arith.mul (Arith.ofRat (-1)) a.den⟩

/-- `operator*`, `*=` with a number, `compound_unit.hpp:166-174`. -/
def scale (a : Compound F) (k : F) : Compound F := ⟨Arith.mul a.num k, a.den⟩

/-- `operator/`, `/=` with a number, `compound_unit.hpp:175-185`. -/
def divide (a : Compound F) (k : F) : Res (Compound F) := if feq k fzero then .error .exception else do return ⟨← RUnit.divide a.num k, a.den⟩

/-- `operator==`, `compound_unit.hpp:187-191`: of any two compound units. -/
def eq (a b : Compound F) : Res Bool := do return RUnit.approxEq (← a.raw) (← b.raw)

/-- `operator<`, `compound_unit.hpp:196-199`. -/
def lt (a b : Compound F) : Res Bool := do return Arith.lt (← a.raw) (← b.raw)

/-- `operator<=`, `compound_unit.hpp:204-207`. -/
def le (a b : Compound F) : Res Bool := do return Arith.le (← a.raw) (← b.raw)

/-- `operator>`, `compound_unit.hpp:200-203`. -/
def gt (a b : Compound F) : Res Bool := do return Arith.lt (← b.raw) (← a.raw)

/-- `operator>=`, `compound_unit.hpp:208-211`. -/
def ge (a b : Compound F) : Res Bool := do return Arith.le (← b.raw) (← a.raw)

/-- `operator!=`, `compound_unit.hpp:192-195`. -/
def ne (a b : Compound F) : Res Bool := do return !(← eq a b)

/-- `scale_to_integer`, `compound_unit.hpp:220-222`, in exact arithmetic: undefined unless the result fits a 64-bit `unsigned long`. -/
def scaleToInteger (x factor : Rat) : Res Nat :=
  let n := F32.roundAway (x * factor)
  if 0 ≤ n ∧ n < 2 ^ 64 then .ok n.toNat else .error .ub

/-- `simplify`, `compound_unit.hpp:106-110`, `:223-226`, for floating point, in exact arithmetic. -/
def simplify (factor : Rat) (a : Compound Rat) : Res (Compound Rat) := do
  let n ← scaleToInteger a.num factor
  let d ← scaleToInteger a.den factor
  let g : Rat := (Nat.gcd n d : Nat)
  return ⟨← RUnit.divide a.num g, ← RUnit.divide a.den g⟩

/-- `_value /= gcd` of an `int64_t` by an `unsigned long`: the division is unsigned. -/
def divideUnsigned (v : Int) (g : Nat) : Res Int :=
  if g = 0 then .error .exception else .ok (Int.bmod ((v % 2 ^ 64) / g) (2 ^ 64))

/-- `simplify` for 64-bit integers. `std::gcd` of signed numbers, undefined if an absolute value cannot be represented. -/
def simplifyInt (a : Int × Int) : Res (Int × Int) := do
  if a.1 = -2 ^ 63 ∨ a.2 = -2 ^ 63 then throw .ub
  let g := Int.gcd a.1 a.2
  return (← divideUnsigned a.1 g, ← divideUnsigned a.2 g)

end Compound
end Spine
