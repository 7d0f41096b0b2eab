import Verif.Outcome
import Verif.Index.Model
import Verif.MultiArray.Model
import Mathlib.Algebra.Order.Field.Basic
import Mathlib.Algebra.Order.Group.Abs
import Mathlib.Algebra.Module.Defs

/-
Model of the finite-difference routines of /repo/source/utilities/math_utils.hpp:350-716.
Grid points lie in an ordered field `K`, data in a `K`-vector space `W` (real or complex numbers).
A line of data along the differentiated axis is a function from positions to outcomes: reading outside
the arrays is `undefined`.
-/
namespace Verif.FinDiff
open Verif Verif.Index Verif.MultiArray

variable {K W : Type} [Field K] [AddCommGroup W] [Module K W]

/-- One line of `get_finite_differences`, math_utils.hpp:365-421: five-point stencils with the fixed
coefficients of an equidistant grid; `n` is the number of points, `x` the grid, `f` the data. -/
def stencil (n : Nat) (x : Nat → Res K) (f : Nat → Res W) (jt : Nat) : Res W :=
  if jt = 0 then do
    let h := (← x (jt+1)) - (← x jt)
    return (1/(h*12)) • (((-25 : K)) • (← f jt) + (48 : K) • (← f (jt+1)) + (-36 : K) • (← f (jt+2))
      + (16 : K) • (← f (jt+3)) + (-3 : K) • (← f (jt+4)))
  else if jt = 1 then do
    let h := (← x (jt+1)) - (← x jt)
    return (1/(h*12)) • ((-3 : K) • (← f (jt-1)) + (-10 : K) • (← f jt) + (18 : K) • (← f (jt+1))
      + (-6 : K) • (← f (jt+2)) + (← f (jt+3)))
  else if jt = n - 2 then do
    let h := (← x jt) - (← x (jt-1))
    return (1/(h*12)) • ((-1 : K) • (← f (jt-3)) + (6 : K) • (← f (jt-2)) + (-18 : K) • (← f (jt-1))
      + (10 : K) • (← f jt) + (3 : K) • (← f (jt+1)))
  else if jt = n - 1 then do
    let h := (← x jt) - (← x (jt-1))
    return (1/(h*12)) • ((3 : K) • (← f (jt-4)) + (-16 : K) • (← f (jt-3)) + (36 : K) • (← f (jt-2))
      + (-48 : K) • (← f (jt-1)) + (25 : K) • (← f jt))
  else do
    let h := (← x (jt+1)) - (← x jt)
    return (1/(12*h)) • ((← f (jt-2)) - (8 : K) • (← f (jt-1)) + (8 : K) • (← f (jt+1)) - (← f (jt+2)))

/-- Array access `a[jt + i]` with a signed offset. -/
def rdI {α : Type} (a : Nat → Res α) (p : Int) : Res α := if 0 ≤ p then a p.toNat else .error .undefined

/-- `for (int j = a; j < b; j++)`. -/
def intRange (a b : Int) : List Int := (List.range (b - a).toNat).map fun k : Nat => a + (k : Int)

section ordered
variable [LinearOrder K]

/-- Body of the two denominator loops of `get_finite_differences_helper`, math_utils.hpp:433-440;
`eps` is `1e-15`. -/
def denomStep (eps : K) (x : Nat → Res K) (jt : Nat) (i : Int) (d : K) (j : Int) : Res K := do
  let d := d * ((← rdI x (jt + i)) - (← rdI x (jt + j)))
  if ¬ |d| > eps then throw .assertion
  return d

/-- Body of the numerator loop, math_utils.hpp:441. -/
def numerStep (x : Nat → Res K) (jt : Nat) (p : K) (j : Int) : Res K := do
  return p * ((← x jt) - (← rdI x (jt + j)))

/-- Body of the outer loop, math_utils.hpp:430-447; the state is `(result, prefactor_data0)`. -/
def helperStep (eps : K) (x : Nat → Res K) (f : Nat → Res W) (jt : Nat) (noI : List Int)
    (lower upper : Int) (acc : W × K) (i : Int) : Res (W × K) := do
  let d ← (intRange lower i).foldlM (denomStep eps x jt i) 1
  let d ← (intRange (i+1) (upper+1)).foldlM (denomStep eps x jt i) d
  let num ← noI.foldlM (numerStep x jt) 1
  let dx := (← x jt) - (← rdI x (jt + i))
  let v ← rdI f (jt + i)
  return (acc.1 + (num / dx / d) • v, acc.2 + 1 / dx)

/-- `get_finite_differences_helper`, math_utils.hpp:426-451. -/
def helper (eps : K) (x : Nat → Res K) (f : Nat → Res W) (jt : Nat) (noI : List Int)
    (lower upper : Int) : Res W := do
  let r ← noI.foldlM (helperStep eps x f jt noI lower upper) (0, 0)
  let v ← f jt
  return r.1 + r.2 • v

/-- One line of `get_finite_differences_v2`, math_utils.hpp:506-533. -/
def lineV2 (eps : K) (n : Nat) (x : Nat → Res K) (f : Nat → Res W) (jt : Nat) : Res W :=
  if jt = 0 then helper eps x f jt [1, 2, 3, 4] 0 4
  else if jt = 1 then helper eps x f jt [-1, 1, 2, 3] (-1) 3
  else if jt = n - 2 then helper eps x f jt [-3, -2, -1, 1] (-3) 1
  else if jt = n - 1 then helper eps x f jt [-4, -3, -2, -1] (-4) 0
  else helper eps x f jt [-2, -1, 1, 2] (-2) 2

/-- `no_is[i]` of `get_finite_differences_v3`, math_utils.hpp:558-565. -/
def noIs (order i : Nat) : List Int := intRange (-(i:Int)) 0 ++ intRange 1 ((order:Int) - i)

/-- One line of `get_finite_differences_v3`, math_utils.hpp:567-580: central loop for
`(order-1)/2 ≤ jt < n-(order-1)/2`, then the boundary loop, which writes `jt` and `n-1-jt`. -/
def lineV3 (order : Nat) (eps : K) (n : Nat) (x : Nat → Res K) (f : Nat → Res W) (jt : Nat) : Res W :=
  let m := (order - 1) / 2
  if jt < m then helper eps x f jt (noIs order jt) (-(jt:Int)) ((order:Int) - 1 - jt)
  else if jt < n - m then helper eps x f jt (noIs order m) (-(m:Int)) m
  else
    let b := n - 1 - jt
    helper eps x f jt (noIs order (order - 1 - b)) (-(order:Int) + 1 + b) b

/-- `get_finite_differences_helper_v2`, math_utils.hpp:453-478, is the helper on the grid
`… -2, -1, 0, 1, 2 …` around `jt`: every difference of grid points is the difference of the offsets. -/
def unitGrid (K : Type) [Field K] : Nat → Res K := fun k => .ok (k : K)

/-- One line of `get_finite_differences_v4`, math_utils.hpp:582-624. -/
def lineV4 (order : Nat) (eps : K) (n : Nat) (f : Nat → Res W) (jt : Nat) : Res W :=
  lineV3 order eps n (unitGrid K) f jt

end ordered

/-- Access `v[k]` of a vector. -/
def rd {α : Type} (l : List α) (k : Nat) : Res α :=
  match l[k]? with
  | some a => .ok a
  | none => .error .undefined

def optRes {α : Type} : Option α → Res α
  | some x => .ok x
  | none => .error .undefined

/-- Body of the double loop over `it`, `jt` (flat position `k = it*dimsum + jt`) of all versions, e.g.
math_utils.hpp:512-533: the line with number `it` is read through `rotateFlatIndex`, and the result
written to the rotated position. -/
def finDiffStep (line : (Nat → Res W) → Nat → Res W) (data : List W)
    (dims perm : List Nat) (n : Nat) (res : List W) (k : Nat) : Res (List W) := do
  let v ← line (fun j => do rd data (← optRes (rotateFlatIndexPerm (k / n * n + j) dims perm))) (k % n)
  let p ← optRes (rotateFlatIndexPerm k dims perm)
  if p < res.length then return res.set p v else throw .undefined

/-- `get_finite_differences*(data, xs, dims, permutation)`, math_utils.hpp:350-624, for a `line` function;
`order` is the order in which the iterations of the (parallel) loops are executed. -/
def finDiff (line : (Nat → Res K) → (Nat → Res W) → Nat → Res W) (minPoints : Nat) (data : List W)
    (xs : List K) (dims perm : List Nat) (order : List Nat) : Res (List W) :=
  match dims.getLast? with
  | none => .error .undefined
  | some n =>
    if n ≠ xs.length then .error .assertion
    else if n < minPoints then .error .assertion
    else order.foldlM (finDiffStep (line (rd xs)) data dims perm n) (List.replicate data.length 0)

/-- `partial_deriv(vec, …)`, math_utils.hpp:639-650, and `partial_deriv_v2`, 654-665, with the respective
line function (`lineV2`, `lineV4`). -/
def partialDerivVec (line : (Nat → Res K) → (Nat → Res W) → Nat → Res W) (minPoints : Nat)
    (data : List W) (xs : List K) (dims : List Nat) (iDim : Nat) (order : List Nat) : Res (List W) :=
  if dims.length ≤ iDim then .error .assertion
  else
    match permuteCyclic dims (dims.length - iDim - 1) with
    | none => .error .assertion
    | some dp =>
      finDiff line minPoints data xs dp
        ((List.range dims.length).map fun i => if i ≤ iDim then i + dims.length - iDim - 1 else i - iDim - 1)
        order

/-- `partial_deriv(multiarray, i_dim)`, math_utils.hpp:686-716: the elements are reinterpreted as a
column-major matrix with `dimsL` (product of the extents after the axis) rows and `dimsR = size/dimsL`
columns; three-point stencils over the columns.  `rd` reads are in range by Eigen's checked `block`
whenever there are at least three columns; the axis is asserted to have more than two points. -/
def partialDerivArr (K : Type) {W : Type} [Field K] [AddCommGroup W] [Module K W] (data : MArr W)
    (iDim : Nat) : Res (MArr W) :=
  if ¬ iDim < data.len.length then .error .assertion
  else if ¬ data.len.getD iDim 0 > 2 then .error .assertion
  else
    let flatsize := data.len.prod
    let dimsL := data.cum.getD iDim 0
    let dimsR := flatsize / dimsL
    let m := fun r c => rd data.elems (c * dimsL + r)
    do
      let els ← (List.range (dimsL * dimsR)).mapM fun k =>
        let r := k % dimsL
        let c := k / dimsL
        if c = 0 then do
          return (-(3/2) : K) • (← m r 0) + (2 : K) • (← m r 1) + (-(1/2) : K) • (← m r 2)
        else if c = dimsR - 1 then do
          return (1/2 : K) • (← m r (dimsR-3)) + (-2 : K) • (← m r (dimsR-2)) + (3/2 : K) • (← m r (dimsR-1))
        else do
          return (-(1/2) : K) • (← m r (c-1)) + (1/2 : K) • (← m r (c+1))
      return { data with elems := els }

end Verif.FinDiff
