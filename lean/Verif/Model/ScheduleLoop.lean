import Verif.Model.Schedule
/-!
# Model of a program that follows a schedule by sleeping until the next block

`/repo/src/spine/structure/time/schedule.cpp:16-30`.  The only use for `start_of_next_block` besides display: at each waking the program
sets its output to `value_at(now)` and sleeps until `start_of_next_block(now)`.  The program is not part of the library; the two functions
it calls are.  Waking is taken to be on time.
-/

namespace Spine.Schedule

variable {F : Type} [Arith F]

/-- The rest of the day from `now` on: at every waking, the time and the value set.  The day is over when the next waking is not before
24 h, which is what `start_of_next_block` (`schedule.cpp:29`) returns when no block is left. -/
def follow (s : List (Block F)) : Nat → Int → Res (List (Int × F))
  | 0, _ => .error .fuel
  | fuel + 1, now => do
    let v ← valueAt s now
    let next ← startOfNext s now
    if ← KTime.lt .base .hour next 24 then return (now, v) :: (← follow s fuel next)
    else return [(now, v)]

end Spine.Schedule
