import Verif.Model.Compound
/-!
# `CompoundUnit::simplify` in `float`, and with an `unsigned long` of 32 bits

`compound_unit.hpp:106-110`, `:220-226`. `Compound.lean` has the function in exact arithmetic and for 64-bit integers with a 64-bit `unsigned long`. The width of `unsigned long` is up to the
target: 64 bits on a native Linux, 32 bits on ESP32 and ARM.
-/

namespace Spine
namespace Compound

/-- `scale_to_integer`, `compound_unit.hpp:220-222`: multiplied and rounded in `float`, undefined unless the result fits an `unsigned long` of `ulong` values. -/
def scaleFl (ulong : Nat) (x factor : Fl) : Res Nat :=
  match Arith.mul x factor with
  | .num s m =>
    let n := F32.roundAway (if s then -m else m)
    if 0 ≤ n ∧ n < ulong then .ok n.toNat else .error .ub
  | _ => .error .ub

/-- `simplify`, `compound_unit.hpp:106-110`, `:223-226`; the divisor is converted to `float` (`unit.hpp:95-100`). -/
def simplifyFl (ulong : Nat) (factor : Fl) (a : Compound Fl) : Res (Compound Fl) := do
  let n ← scaleFl ulong a.num factor
  let d ← scaleFl ulong a.den factor
  let g := Fl.ofRat (Nat.gcd n d : Nat)
  return ⟨← RUnit.divide a.num g, ← RUnit.divide a.den g⟩

/-- `_value /= gcd` of an `int64_t` by a 32-bit `unsigned long`: the divisor is converted to `int64_t`. -/
def divideSigned (v : Int) (g : Nat) : Res Int := if g = 0 then .error .exception else .ok (v.tdiv g)

/-- `simplify` for 64-bit integers with a 32-bit `unsigned long`: `std::gcd` computes with 64 bits, its result is cut to 32 bits on return. -/
def simplifyInt32 (a : Int × Int) : Res (Int × Int) := do
  if a.1 = -2 ^ 63 ∨ a.2 = -2 ^ 63 then throw .ub
  let g := Int.gcd a.1 a.2 % 2 ^ 32
  return (← divideSigned a.1 g, ← divideSigned a.2 g)

end Compound
end Spine
