import Verif.Model.Filter
import Verif.Model.Latch
/-!
# Model of a latch behind an average

`latch.new_reading(average.value(sample))` for each sample, with the `EWMA` of `/repo/src/spine/filter/implementations/ewma.hpp` and the `SRLatch` of
`/repo/src/spine/controller/sr_latch.cpp`.
-/

namespace Spine

variable {F : Type} [Arith F]

/-- The averages, each with the time of its sample; `value(sample)`, `ewma.hpp:28-34`. -/
def averages (k : F) : Ewma F → List (Int × F) → List (Int × F)
  | _, [] => []
  | s, (t, x) :: rs => (t, (s.sample k x).value) :: averages k (s.sample k x) rs

/-- The responses of the latch after each sample, `sr_latch.cpp:5-30`, `sr_latch.hpp:34`. Both objects are made at `t0`. -/
def filteredResponses (cfg : LatchConfig F) (k : F) (t0 : Int) (rs : List (Int × F)) : Res (List Bool) :=
  Latch.responses cfg t0 (averages k Ewma.create rs)

end Spine
