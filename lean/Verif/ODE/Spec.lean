import Mathlib.Data.Rat.Defs
import Mathlib.Algebra.Field.Rat

/-
Order of a Runge-Kutta method in terms of rooted trees (Butcher).  A rooted tree is a single vertex or is
obtained by attaching a tree `s` as a further child of the root of a tree `t`.
-/
namespace Verif.ODE

inductive RTree where
  | vertex
  | attach (t s : RTree)
  deriving DecidableEq, Repr

/-- Number of vertices. -/
def RTree.order : RTree → Nat
  | vertex => 1
  | attach t s => t.order + s.order

/-- Density `γ`: product over all vertices of the size of the subtree hanging there. -/
def RTree.density : RTree → ℚ
  | vertex => 1
  | attach t s => (t.density / t.order) * s.density * (t.order + s.order)

/-- Internal weight of stage `i`: product over the children of the root of `Σ_j a i j (weight of child at j)`. -/
def RTree.stageWeight (a : Nat → Nat → ℚ) (n : Nat) : RTree → Nat → ℚ
  | vertex, _ => 1
  | attach t s, i => t.stageWeight a n i * ((List.range n).map fun j => a i j * s.stageWeight a n j).sum

/-- Elementary weight. -/
def RTree.weight (a : Nat → Nat → ℚ) (b : Nat → ℚ) (n : Nat) (t : RTree) : ℚ :=
  ((List.range n).map fun i => b i * t.stageWeight a n i).sum

/-- A method with coefficients `a`, `b` and `n` stages has order (at least) `p`. -/
def HasOrder (a : Nat → Nat → ℚ) (b : Nat → ℚ) (n p : Nat) : Prop :=
  ∀ t : RTree, t.order ≤ p → t.weight a b n = 1 / t.density

end Verif.ODE
