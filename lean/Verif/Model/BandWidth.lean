import Mathlib.Analysis.SpecialFunctions.Pow.Real
import Verif.Model.Filter
/-!
# Model of the configuration of `BandPass`

`/repo/src/spine/filter/implementations/bandpass.hpp`, with real numbers for `ValueType` and the exact power for `std::pow`: C++ does not say how far `std::pow` may be off.
-/

namespace Spine

open Classical in
/-- Exact arithmetic. -/
noncomputable instance : Arith ℝ where
  ofRat q := q
  add := (· + ·)
  sub := (· - ·)
  mul := (· * ·)
  div := (· / ·)
  lt a b := decide (a < b)
  le a b := decide (a ≤ b)

/-- `BandPass::Config`, `bandpass.hpp:20-39`. -/
structure BandConfig where
  relative : Bool
  mantissa : ℝ
  decades : ℝ
  offset : ℝ
  limit : Int
  throws : Bool

namespace BandConfig

/-- `std::pow(_cfg.mantissa * 10, (_cfg.decades + 1))`, `bandpass.hpp:96-97`. -/
noncomputable def width (c : BandConfig) : ℝ := (c.mantissa * 10) ^ (c.decades + 1)

/-- What the other functions see of it. -/
noncomputable def seen (c : BandConfig) : BandCfg ℝ := ⟨c.relative, c.width, c.offset, c.limit, c.throws⟩

open Classical in
/-- The constructor, `bandpass.hpp:51-55`. -/
noncomputable def make (b : Build) (c : BandConfig) : Res (Band ℝ) := do
  spnAssert b (decide (1 ≤ c.mantissa) && decide (c.mantissa < 10))
  return Band.create c.seen

/-- The configuration of `Broad()`, `bandpass.hpp:42-49`, and the one that is used if nothing is given, `bandpass.hpp:23-38`. -/
noncomputable def broad : BandConfig := ⟨true, 1, 1 / 100, 0, 10, true⟩

end BandConfig
end Spine
