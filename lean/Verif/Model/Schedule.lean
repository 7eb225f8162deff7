import Verif.Model.Units
import Verif.Model.Pid
/-!
# Model of `spn::structure::time::Schedule`

`/repo/src/spine/structure/time/schedule.{hpp,cpp}`.  Times are `k_time_s` with the operators of `Verif/Model/Units.lean`; the array of
blocks (`schedule.hpp:39`, a copy of the initializer list) is a list.
-/

namespace Spine

variable {F : Type} [Arith F]

/-- `Schedule::Block`, `schedule.hpp:17-21`. -/
structure Block (F : Type) where
  start : Int
  duration : Int
  value : F
  deriving DecidableEq

namespace Schedule

/-- `total_time` of the constructor's loop, `schedule.cpp:8-12`. -/
def total (b : Build) (sum : Int) : List (Block F) → Res Int
  | [] => .ok sum
  | x :: xs => do
    spnAssert b (← KTime.gt .base .base x.duration 0)
    total b (← KTime.add .base .base sum x.duration) xs

/-- The constructor, `schedule.cpp:7-14`; the schedule is the list of blocks. -/
def create (b : Build) (blocks : List (Block F)) : Res (List (Block F)) := do
  let sum ← total b 0 blocks
  spnAssert b (← KTime.le .base .hour sum 24)
  return blocks

/-- `is_today`, `schedule.cpp:18`, with the short circuit of `&&`. -/
def isToday (x : Block F) (t : Int) : Res Bool := do
  if ← KTime.ge .base .base t x.start then KTime.lt .base .base t (← KTime.add .base .base x.start x.duration)
  else return false

/-- `is_after_midnight`, `schedule.cpp:19`. -/
def isAfterMidnight (x : Block F) (t : Int) : Res Bool := do
  let stop ← KTime.add .base .base x.start x.duration
  if ← KTime.gt .base .hour stop 24 then
    let stop ← KTime.add .base .base x.start x.duration
    KTime.lt .base .base t (← KTime.sub .base .hour stop 24)
  else return false

/-- `value_at`, `schedule.cpp:16-23`. -/
def valueAt : List (Block F) → Int → Res F
  | [], _ => .ok fzero
  | x :: xs, t => do
    let today ← isToday x t
    let afterMidnight ← isAfterMidnight x t
    if today || afterMidnight then return x.value else valueAt xs t

/-- `start_of_next_block`, `schedule.cpp:25-30`. -/
def startOfNext : List (Block F) → Int → Res Int
  | [], _ => KTime.convert .hour .base 24
  | x :: xs, t => do if ← KTime.lt .base .base t x.start then return x.start else startOfNext xs t

end Schedule
end Spine
