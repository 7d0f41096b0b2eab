import Verif.Accuracy.Model
import Mathlib.Analysis.Calculus.Deriv.Basic
import Mathlib.Analysis.SpecialFunctions.Exp

/-! What it means that a computed flow follows a given one. -/
namespace Verif.Accuracy
open Verif.ODE

variable {E : Type} [NormedAddCommGroup E] [NormedSpace ℝ E]

/-- `Y` with slope `D` is a flow on the interval `I` of the variable `t`, and the right-hand side that is evaluated
approximates its slope: near the flow it differs from the slope by at most `L` times the distance plus `ρ`. The slope varies
by at most `ω` over distances up to `δ`. -/
structure Follows (I : Set ℝ) (p : FlowParam ℝ) (rhs : E → ℝ → E) (Y D : ℝ → E) (L ρ r ω δ : ℝ) : Prop where
  interval : I.OrdConnected
  flow : ∀ t ∈ I, HasDerivWithinAt Y (D t) I t
  close : ∀ t ∈ I, ∀ y, ‖y - Y t‖ ≤ r → ‖p.dlam t • rhs y (p.lam t) - D t‖ ≤ L * ‖y - Y t‖ + ρ
  slow : ∀ s ∈ I, ∀ t ∈ I, |s - t| ≤ δ → ‖D s - D t‖ ≤ ω

/-- All points of a walk from `t` with steps `hs` lie in `I`. -/
def Inside (I : Set ℝ) : ℝ → List ℝ → Prop
  | t, [] => t ∈ I
  | t, h :: hs => t ∈ I ∧ Inside I (t + h) hs

/-- Length of a walk. -/
def length (hs : List ℝ) : ℝ := (hs.map abs).sum

/-- The bound on the error after the steps `hs`: errors at the start, of the slopes and of what happens after the steps,
multiplied by the growth of distances. -/
noncomputable def bound (L ρ ω η e : ℝ) (hs : List ℝ) : ℝ :=
  Real.exp (2 * L * length hs) * (e + length hs * (4 * ω + 2 * ρ) + hs.length * η)

/-- The tableaux of the solver. -/
def tableaux : List Tableau := [cashKarp, rk4, bogackiShampine]

end Verif.Accuracy
