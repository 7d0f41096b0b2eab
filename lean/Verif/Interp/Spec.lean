import Mathlib.Algebra.Module.Defs
import Mathlib.Data.Real.Basic
import Mathlib.Algebra.Polynomial.Eval.Defs

/-
Vocabulary for interpolation, independent of the code.
-/
namespace Verif.Interp

/-- Multilinear interpolation between the corners of the unit cube: `f` gives the value at a corner (a list
of zeros and ones), `ds` the coordinates. -/
def multilin {V : Type} [AddCommMonoid V] [Module ℝ V] : List ℝ → (List Nat → V) → V
  | [], f => f []
  | d :: ds, f => (1 - d) • multilin ds (fun o => f (0 :: o)) + d • multilin ds (fun o => f (1 :: o))

/-- A function of `n` real variables that is affine in each variable separately (in particular every
affine function). -/
def MultiAffine {V : Type} [AddCommGroup V] [Module ℝ V] : Nat → (List ℝ → V) → Prop
  | 0, _ => True
  | n + 1, f => (∃ a b : List ℝ → V, ∀ x xs, f (x :: xs) = a xs + x • b xs) ∧
      ∀ x, MultiAffine n (fun xs => f (x :: xs))

/-- A function of `n` real variables that is a polynomial of degree at most three in each variable. -/
def MultiCubic {V : Type} [AddCommGroup V] [Module ℝ V] : Nat → (List ℝ → V) → Prop
  | 0, _ => True
  | n + 1, f =>
      (∃ a b c d : List ℝ → V, ∀ x xs, f (x :: xs) = a xs + x • b xs + x^2 • c xs + x^3 • d xs) ∧
      ∀ x, MultiCubic n (fun xs => f (x :: xs))

end Verif.Interp
