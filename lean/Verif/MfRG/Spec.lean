import Verif.MfRG.Model
import Mathlib.Algebra.BigOperators.Intervals

/-
The multiloop flow equations as recursion relations for the contributions of loop order `i`, written without
reference to loops, variables or stopping.
-/
namespace Verif.MfRG

variable {V S : Type} [AddCommGroup V]

/-- The contribution of loop order `i + 1` to the vertex flow, and its left and right parts as used for the
next central part:
order 1 is the one-loop term; order 2 consists of a left and a right part made from order 1; each higher order
of left and right parts made from the previous order and a central part made from the previous left and right
parts. -/
def orders (E : Eqs V S) (σ : S) : ℕ → V × (V × V)
  | 0 => (E.one σ, (0, 0))
  | 1 => (E.left (E.one σ) + E.right (E.one σ), E.reorder (E.left (E.one σ), E.right (E.one σ)))
  | i + 2 =>
    let p := orders E σ (i + 1)
    (E.left p.1 + E.central p.2.1 p.2.2 + E.right p.1, E.reorder (E.left p.1, E.right p.1))

/-- Contribution of loop order `i ≥ 1`. -/
def contribution (E : Eqs V S) (σ : S) (i : ℕ) : V := (orders E σ (i - 1)).1

/-- Central part of loop order `i ≥ 3`. -/
def centralPart (E : Eqs V S) (σ : S) (i : ℕ) : V :=
  E.central (orders E σ (i - 2)).2.1 (orders E σ (i - 2)).2.2

/-- Sum of the contributions of loop orders `1 … m`. -/
def sumTo (E : Eqs V S) (σ : S) (m : ℕ) : V := ∑ i ∈ Finset.Icc 1 m, contribution E σ i

/-- The tolerance is met at loop order `i`: its contribution is small absolutely or relative to the sum. -/
def Small (E : Eqs V S) (c : Cfg) (σ : S) (i : ℕ) : Prop :=
  (∃ x, E.absV (contribution E σ i) = some x ∧ x < c.tolAbs) ∨
    ∃ x, E.relV (contribution E σ i) (sumTo E σ i) = some x ∧ x < c.tolRel

/-- `m` is the loop order at which the configuration stops: the configured number, or the first order from three
on at which the tolerance is met. -/
def StopsAt (E : Eqs V S) (c : Cfg) (σ : S) (m : ℕ) : Prop :=
  1 ≤ m ∧ (m : ℤ) ≤ c.nloops ∧ (∀ i, 3 ≤ i → i < m → ¬ Small E c σ i) ∧
    ((m : ℤ) = c.nloops ∨ (3 ≤ m ∧ Small E c σ m))

end Verif.MfRG
