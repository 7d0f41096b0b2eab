import Verif.Accuracy.Spec
import Mathlib.Analysis.Calculus.ContDiff.RCLike

/-! Flows with a smooth right-hand side. -/
namespace Verif.Order
open Verif.ODE

variable {E : Type} [NormedAddCommGroup E] [NormedSpace ℝ E]

/-- `y` is a flow with the right-hand side `f`, Λ is a function of `t` on the open set `J`, and both are six times
continuously differentiable there. -/
structure Smooth (J : Set ℝ) (p : FlowParam ℝ) (f : E → ℝ → E) (y : ℝ → E) : Prop where
  isOpen : IsOpen J
  param : ∀ t ∈ J, HasDerivAt p.lam (p.dlam t) t
  speed : ContDiffOn ℝ 6 p.dlam J
  flow : ∀ t ∈ J, HasDerivAt y (f (y (p.lam t)) (p.lam t)) (p.lam t)
  rhs : ∀ t ∈ J, ContDiffAt ℝ 6 (fun z : E × ℝ => f z.1 z.2) (y (p.lam t), p.lam t)

/-- The schemes with their orders. -/
def orders : List (Tableau × ℕ) := [(cashKarp, 5), (rk4, 4), (bogackiShampine, 3)]

end Verif.Order
