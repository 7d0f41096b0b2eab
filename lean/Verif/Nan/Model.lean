import Mathlib.Data.Real.Basic
import Verif.Outcome
import Verif.StepControl.Model

/-
What the norms of the code make of data that contain NaN: /repo/source/multidimensional/multiarray.hpp:24-27,
520-532, /repo/source/data_structures.hpp:378-385, /repo/source/correlation_functions/four_point/vertex.hpp:
1821-1884, /repo/source/correlation_functions/two_point/selfenergy.hpp:350-366,
/repo/source/correlation_functions/state.hpp:202-215, /repo/source/ODE_solvers/ODE_solvers.hpp:270-290, and the
test for convergence /repo/source/perturbation_theory_and_parquet/parquet_solver.hpp:609-628.

The data enter by their moduli.  A modulus is a real number or NaN (`none`); infinities are not modelled, except
as a quotient by zero.  Comparisons with NaN are false and sums with NaN are NaN, as IEEE 754 has it.
-/
namespace Verif.Nan

open Verif (Res)
open Verif.StepControl (Err)

/-- A double that is a number or NaN. -/
abbrev Dbl := Option ℝ

open Classical in
/-- `a < b` -/
noncomputable def lt : Dbl → Dbl → Bool
  | some a, some b => decide (a < b)
  | _, _ => false

/-- `a + b` -/
noncomputable def add : Dbl → Dbl → Dbl
  | some a, some b => some (a + b)
  | _, _ => none

open Classical in
/-- `a / b` -/
noncomputable def div : Dbl → Dbl → Err
  | some a, some b => if b ≠ 0 then .num (a / b) else if a = 0 then .nan else .inf
  | _, _ => .nan

/-- `std::max(a, b)`: `(a < b) ? b : a`. -/
noncomputable def stdMax (a b : Dbl) : Dbl := if lt a b then b else a

/-- `vec::max_norm`, data_structures.hpp:378-385: `out = std::max(out, abs(x))` from `out = 0`. -/
noncomputable def vecNorm (l : List Dbl) : Dbl := l.foldl stdMax (some 0)

/-- `multiarray::max_norm`, multiarray.hpp:520-532: `std::max_element` with `abs_compare` (24-27) keeps the first
element and replaces it by a later one that compares larger.  For an array without elements it returns `end()`,
which is dereferenced. -/
noncomputable def arrayNorm : List Dbl → Res Dbl
  | [] => .error .undefined
  | x :: l => .ok (l.foldl (fun m y => if lt m y then y else m) x)

/-- `norm_K1(0)`, `norm_K2(0)`, `norm_K3(0)`, vertex.hpp:1821-1877: `if (compare > max) max = compare;`. -/
noncomputable def classNorm (a p t : List Dbl) : Res Dbl := do
  let m ← arrayNorm a
  let c ← arrayNorm p
  let m := if lt m c then c else m
  let c ← arrayNorm t
  return if lt m c then c else m

/-- The moduli of one class of a vertex in the three channels. -/
structure Class where
  a : List Dbl
  p : List Dbl
  t : List Dbl

/-- The moduli of a state: self-energy, its value at infinity and the classes of the vertex. -/
structure Data where
  sigma : List Dbl
  asymp : Dbl
  k1 : Class
  k2 : Class
  k3 : Class

/-- `sum_norm(0)`, vertex.hpp:1878-1884, with `MAX_DIAG_CLASS = 3`. -/
noncomputable def vertexNorm (d : Data) : Res Dbl := do
  let n1 ← classNorm d.k1.a d.k1.p d.k1.t
  let n2 ← classNorm d.k2.a d.k2.p d.k2.t
  let n3 ← classNorm d.k3.a d.k3.p d.k3.t
  return add (add (add (some 0) n1) n2) n3

/-- `SelfEnergy::norm(0)`, selfenergy.hpp:350-354. -/
noncomputable def seNorm (d : Data) : Res Dbl := do
  let s ← arrayNorm d.sigma
  return stdMax s d.asymp

/-- `State::norm`, state.hpp:202-208. -/
noncomputable def stateNorm (d : Data) : Res Dbl := do
  let v ← vertexNorm d
  let s ← seNorm d
  return stdMax s v

/-- `max_rel_err`, state.hpp:211-215. -/
noncomputable def maxRelErr (err scale : Data) : Res Err := do
  let e ← stateNorm err
  let s ← stateNorm scale
  return div e s

/-- `is_converged` of the parquet solver, parquet_solver.hpp:627, from the two relative differences. -/
def converged (accuracy : ℝ) (vertex se : Err) : Prop := ¬ (vertex.exceeds accuracy ∨ se.exceeds accuracy)

/-- The sum of a list, NaN if an element is. -/
noncomputable def total (l : List Dbl) : Dbl := l.foldl add (some 0)

/-- The norm of the difference of two vertices in the parquet solver, `norm()` = `sum_norm(2)`, vertex.hpp:
1009-1013, 1832-1835: a sum over all elements of powers and a root, here any function of the sum over all the
elements of each class (given by the powers of the elements, so that NaN stays NaN). -/
noncomputable def powerNorm (root : ℝ → ℝ) (c : Class) : Dbl :=
  (add (add (total c.a) (total c.p)) (total c.t)).map root

end Verif.Nan
