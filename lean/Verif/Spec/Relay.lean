import Verif.Model.Tuner
/-!
# Specification of relay tuning
-/

namespace Spine

variable {F : Type} [Arith F]

/-- How often the input has fallen below `lo` after having risen above `hi`; `on` says that a rise is awaited. -/
def oscillations (hi lo : F) : Bool → List F → Nat
  | _, [] => 0
  | true, x :: xs => if Arith.lt hi x then oscillations hi lo false xs else oscillations hi lo true xs
  | false, x :: xs => if Arith.lt x lo then oscillations hi lo true xs + 1 else oscillations hi lo false xs

/-- What `get_Kp()`, `get_Ki()`, `get_Kd()` return each time `get_cycle()` has gone up. -/
def gainsSeen (cycle : Int) : List (Tuner F) → List (F × F × F)
  | [] => []
  | t :: ts => if t.cycle > cycle then (t.kp, t.ki, t.kd) :: gainsSeen t.cycle ts else gainsSeen cycle ts

/-- The tuner after a series of readings. -/
def Tuner.play (t : Tuner F) : List (F × Int) → Res (Tuner F)
  | [] => .ok t
  | (x, ms) :: l => do play (← t.step x ms) l

/-- The Ziegler-Nichols factors: gain, integral time and derivative time. -/
def znTable : ZnMode → Rat × Rat × Rat
  | .basic => (6 / 10, 1 / 2, 125 / 1000)
  | .less => (33 / 100, 1 / 2, 33 / 100)
  | .none => (2 / 10, 1 / 2, 33 / 100)

/-- The gains of relay tuning: with the amplitudes `d` of the output and `a` of the input and the period `tu` of the oscillation, for
a loop that runs every `loop`. -/
def relayGains (mode : ZnMode) (d a tu loop : Rat) : Rat × Rat × Rat :=
  let ku := 4 * d / (314159265358979323846 / 10 ^ 20 * a)
  let kp := (znTable mode).1 * ku
  (kp, kp / ((znTable mode).2.1 * tu) * loop, kp * ((znTable mode).2.2 * tu) / loop)

end Spine
