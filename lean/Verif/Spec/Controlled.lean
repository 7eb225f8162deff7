import Verif.Spec.Process
import Mathlib.Algebra.Polynomial.Eval.Defs
import Mathlib.Algebra.Polynomial.AlgebraMap
import Mathlib.Analysis.Complex.Basic
/-!
# Linear processes

Anything that a controller can be connected to, in discrete time, and what it means that it is linear.
-/

namespace Spine
open Polynomial

/-- A process with states `σ`: what an output of the controller makes of it until the next computation, and what is measured. -/
structure Controlled (σ : Type) where
  next : σ → ℚ → σ
  read : σ → ℚ

/-- What is measured and the outputs always satisfy the same difference equation, with a constant load `w`:
`a₀ x(k) + a₁ x(k + 1) + ... = b₀ u(k) + b₁ u(k + 1) + ... + w`. -/
def Controlled.Linear {σ : Type} (p : Controlled σ) (A B : ℚ[X]) (w : ℚ) : Prop :=
  ∀ (z : ℕ → σ) (u : ℕ → ℚ), (∀ k, z (k + 1) = p.next (z k) (u k)) →
    ∀ k, A.sum (fun i a => a * p.read (z (k + i))) = B.sum (fun i b => b * u (k + i)) + w

/-- The characteristic polynomial of the loop of the process and a controller that adds up `ki` times the error, less `kp` times the change of what is
measured, and subtracts `kd` times the change. -/
noncomputable def loopPoly (A B : ℚ[X]) (kp ki kd : ℚ) : ℚ[X] :=
  A * (X * (X - 1)) + B * (C ki * X ^ 2 + C kp * (X * (X - 1)) + C kd * (X - 1) ^ 2)

/-- All roots of the polynomial lie inside the unit circle. -/
def Damped (P : ℚ[X]) : Prop := ∀ z : ℂ, aeval z P = 0 → ‖z‖ < 1

/-- A process of first order that makes `m` steps between two computations. -/
def Process.plant (p : Process) (m : ℕ) : Controlled ℚ := ⟨fun x u => (p.next · u)^[m] x, id⟩

/-- A process of first order on which an output acts one computation late. -/
def Process.late (p : Process) : Controlled (ℚ × ℚ) := ⟨fun z u => (p.next z.1 z.2, u), Prod.fst⟩

end Spine
