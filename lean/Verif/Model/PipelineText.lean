import Verif.Model.Pipeline
import Verif.Model.Text
/-!
# Model of `Pipeline::to_string`

`/repo/src/spine/eventsystem/pipeline.cpp:15-47`, also reached through `EventSystem::pipeline_as_string` (`eventsystem.hpp:109`).  The text is built twice,
once for its length; every remaining time is computed from a reading of the clock of its own.
-/

namespace Spine.Pipe

variable {ω δ : Type} (b : Build) (p : Pipe ω δ)

/-- The loop of `pipeline_repr`, `pipeline.cpp:25-29`, from the iterator `it` on; `reads i` is the time of round `i`.  The condition of
`pipeline.cpp:28` is that of the loop and holds in every round. -/
def listed (reads : Nat → Int) (it i : Nat) : Nat → Res (List Char)
  | 0 => .error .fuel
  | fuel + 1 =>
    if it = p.vec.tail then .ok []
    else do
      let o ← deref (← rd p.vec.store it)
      let left ← (p.heap o).timer.timeFromNow (reads i)
      let text ← Text.repr .milli left
      let comma := if it ≠ p.vec.tail then ", ".toList else []
      let rest ← listed reads (uadd it 1) (i + 1) fuel
      return text ++ comma ++ rest

/-- `pipeline_repr`, `pipeline.cpp:16-32`: what it puts, whose length it returns. -/
def pass (reads : Nat → Int) : Res (List Char) := do
  let l ← p.listed reads p.vec.head 0 (p.vec.size + 1)
  return "Pipeline: [".toList ++ l ++ "]".toList

/-- `to_string()`, `pipeline.cpp:15-47`.  `room n` is the capacity of an empty `std::string` after `reserve(n)`, which is `n` or more; `reads` and `reads'` are
the readings of the clock in the two passes. -/
def toText (room : Nat → Nat) (reads reads' : Nat → Int) : Res (List Char) := do
  let total := (← p.pass reads).length
  let result ← p.pass reads'
  spnAssert b (decide (result.length ≤ total))
  spnAssert b (room total == total)
  return result

end Spine.Pipe
