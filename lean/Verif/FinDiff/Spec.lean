import Verif.Index.Spec
import Mathlib.Algebra.Module.Defs
import Mathlib.Algebra.BigOperators.Group.Finset.Basic
import Mathlib.Algebra.Field.Defs

/-
Vocabulary for derivatives of polynomial data.
-/
namespace Verif.FinDiff
open Verif.Index

variable {K W : Type} [Field K] [AddCommGroup W] [Module K W]

/-- Value at `x` of the polynomial with `n` coefficients `c 0, …, c (n-1)` in the vector space `W`. -/
def polyVal (n : Nat) (c : Nat → W) (x : K) : W := ∑ m ∈ Finset.range n, x ^ m • c m

/-- Value at `x` of its derivative. -/
def polyDeriv (n : Nat) (c : Nat → W) (x : K) : W :=
  ∑ m ∈ Finset.range n, ((m : K) * x ^ (m - 1)) • c m

/-- The data, stored in row-major order, on the line through `indx` along axis `iDim`. -/
def lineOf (data : List W) (dims : List Nat) (iDim : Nat) (indx : List Nat) : List W :=
  (List.range (dims.getD iDim 0)).map fun j => data.getD (rowMajor (indx.set iDim j) dims) 0

/-- Three-point differences on a line of points of spacing one: central in the interior, one-sided at the
two ends. -/
def threePoint (K : Type) {W : Type} [Field K] [AddCommGroup W] [Module K W] (l : List W) (c : Nat) : W :=
  let at' := fun k => l.getD k 0
  if c = 0 then (-(3/2) : K) • at' 0 + (2 : K) • at' 1 - (1/2 : K) • at' 2
  else if c = l.length - 1 then (1/2 : K) • at' (c-2) - (2 : K) • at' (c-1) + (3/2 : K) • at' c
  else (1/2 : K) • (at' (c+1) - at' (c-1))

end Verif.FinDiff
