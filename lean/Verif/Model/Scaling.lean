import Verif.Model.Units
/-!
# Model of scaling kernel times in place

`/repo/src/spine/structure/units/primitives/unit.hpp:85-89`, `:96-100` with a scalar which is not a signed integer: a floating
point number (`float` or `double`), or an unsigned 64 bit integer such as a `size_t`.  (`operator*` and `operator/` at `:81-84`
and `:90-95` do not compile with these, as `Unit{...}` does not narrow.)
-/

namespace Spine

/-- A floating point number: a finite one, an infinity or not a number. -/
inductive FNum
  | fin (q : Rat)
  | inf (neg : Bool)
  | nan
  deriving Repr

/-- Conversion of a finite floating point number to an integer: truncation. -/
def truncate (q : Rat) : Int := if 0 ≤ q then ⌊q⌋ else -⌊-q⌋

namespace KTime

/-- `operator*=` with a floating point scalar, `unit.hpp:85-89`: the value is converted to the type of the scalar, multiplied, and
converted back.  `R` is the rounding of that type (without an upper end: what exceeds the type also exceeds `time_t`).
Infinities and NaN have no conversion to `time_t`; neither have their products. -/
def mulFloat (R : Rat → Rat) (v : Int) : FNum → Res Int
  | .fin q => i64 (truncate (R (R v * q)))
  | .inf _ => .error .ub
  | .nan => .error .ub

/-- `operator/=` with a floating point scalar, `unit.hpp:96-100`.  Dividing by an infinity gives a zero. -/
def divFloat (R : Rat → Rat) (v : Int) : FNum → Res Int
  | .fin q => if q = 0 then .error .exception else i64 (truncate (R (R v / q)))
  | .inf _ => .ok 0
  | .nan => .error .ub

/-- Conversion of an unsigned 64 bit integer to `time_t`, which wraps. -/
def signed (n : Int) : Int := if n % 2 ^ 64 < 2 ^ 63 then n % 2 ^ 64 else n % 2 ^ 64 - 2 ^ 64

/-- `operator*=` with an unsigned 64 bit scalar, `unit.hpp:85-89`: the value is converted to unsigned first. -/
def mulUnsigned (v : Int) (n : Nat) : Res Int := .ok (signed (v % 2 ^ 64 * n))

/-- `operator/=` with an unsigned 64 bit scalar, `unit.hpp:96-100`. -/
def divUnsigned (v : Int) (n : Nat) : Res Int :=
  if n = 0 then .error .exception else .ok (signed (v % 2 ^ 64 / n))

end KTime
end Spine
