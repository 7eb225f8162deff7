import Mathlib.Algebra.Order.Field.Rat
/-!
# A process of first order

What a controller is used on, such as a heated room: with each step the output adds `gain` times itself to the quantity that is measured, and the quantity
loses the part `loss` of its distance to the surroundings. Without loss the process adds up the outputs.
-/

namespace Spine

/-- The constants of a process. -/
structure Process where
  gain : Rat
  loss : Rat
  surroundings : Rat

/-- The quantity after one step. -/
def Process.next (p : Process) (x output : Rat) : Rat := x + p.gain * output - p.loss * (x - p.surroundings)

end Spine
