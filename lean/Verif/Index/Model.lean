/-
Model of the index arithmetic in /repo/source/utilities/math_utils.hpp.
`std::array<size_t, rank>` is a `List Nat` of length `rank`; `size_t` is `Nat`
(no wrap-around).  Accesses outside an array and divisions by zero are the outcome `none`.
-/
namespace Verif.Index

/-- The loop of `getFlatIndex`: `result *= dims[it]; result += indx[it];`
math_utils.hpp:119-127. -/
def flatLoop : Nat → List Nat → List Nat → Nat
  | acc, i :: is, d :: ds => flatLoop (acc * d + i) is ds
  | acc, _, _ => acc

/-- `getFlatSize`, math_utils.hpp:105-110: `result = dims[0]; result *= dims[it]`.
Rank 0 would read `dims[0]` out of bounds (never instantiated): `none`. -/
def getFlatSize : List Nat → Option Nat
  | [] => none
  | d :: ds => some (ds.foldl (· * ·) d)

/-- `getFlatIndex`, math_utils.hpp:119-127, with the rank-1 specialisation of
math_utils.hpp:130-133 which returns `dims[0]`.  `none`: ranks differ (does not compile in
C++) or rank 0. -/
def getFlatIndex (indx dims : List Nat) : Option Nat :=
  if indx.length ≠ dims.length then none else
  match indx, dims with
  | [_], [d] => some d
  | i :: is, _ :: ds => some (flatLoop i is ds)
  | _, _ => none

/-- The second loop of `getMultIndex`, math_utils.hpp:187-191:
`dimtemp = dimtemp / dims[it]; indx[it] = temp / dimtemp; temp -= indx[it] * dimtemp`. -/
def multLoop : Nat → Nat → List Nat → List Nat
  | _, _, [] => []
  | temp, dimtemp, d :: ds =>
    let dt := dimtemp / d
    let i := temp / dt
    i :: multLoop (temp - i * dt) dt ds

/-- `getMultIndex`, math_utils.hpp:175-191, with the rank-1 specialisation 194-197.
`none`: division by zero, which happens exactly if a trailing extent is zero (then
`dimtemp = 0` in the first division); or rank 0. -/
def getMultIndex (iflat : Nat) (dims : List Nat) : Option (List Nat) :=
  match dims with
  | [] => none
  | [_] => some [iflat]
  | _ :: ds =>
    let dimtemp := ds.foldl (· * ·) 1
    if dimtemp = 0 then none else
    let i0 := iflat / dimtemp
    some (i0 :: multLoop (iflat - i0 * dimtemp) dimtemp ds)

/-- `math_impl::getFlatIndex` with a permutation, math_utils.hpp:148-157.
Entries of `permutation` outside the arrays are out-of-bounds reads: `none`. -/
def getFlatIndexPerm (indx dims permutation : List Nat) : Option Nat := do
  let is ← permutation.mapM (indx[·]?)
  let ds ← permutation.mapM (dims[·]?)
  match is, ds with
  | i :: is, _ :: ds => some (flatLoop i is ds)
  | _, _ => none

/-- `rotateFlatIndex(iflat, dims, permutation)`, math_utils.hpp:250-256. -/
def rotateFlatIndexPerm (iflat : Nat) (dims permutation : List Nat) : Option Nat := do
  let multIndx ← getMultIndex iflat dims
  getFlatIndexPerm multIndx dims permutation

/-- `dims_rot` of `rotateFlatIndex(iflat, dims_native, i_dim)`, math_utils.hpp:267-274:
the two loops fill positions `0 … rank-i_dim-2` and `rank-i_dim-1 … rank-1`. -/
def dimsRot (dims : List Nat) (iDim : Nat) : Option (List Nat) :=
  let rank := dims.length
  (List.range rank).mapM fun i =>
    if i < rank - iDim - 1 then dims[i + 1 + iDim]? else dims[i + 1 + iDim - rank]?

/-- `permutation` of `rotateFlatIndex(iflat, dims_native, i_dim)`, math_utils.hpp:276-277. -/
def rotPermutation (rank iDim : Nat) : List Nat :=
  (List.range rank).map fun i => if i ≤ iDim then i + rank - 1 - iDim else i - 1 - iDim

/-- `rotateFlatIndex(iflat, dims_native, i_dim)`, math_utils.hpp:262-282.
The code asserts `i_dim <= rank`; for `i_dim = rank` the loop bound `rank-i_dim-1` wraps around
and memory outside the arrays is written, so the real precondition is `i_dim < rank`; both
violations are `none` here. -/
def rotateFlatIndex (iflat : Nat) (dims : List Nat) (iDim : Nat) : Option Nat := do
  if dims.length ≤ iDim then none else
  let dr ← dimsRot dims iDim
  rotateFlatIndexPerm iflat dr (rotPermutation dims.length iDim)

/-- `permuteCyclic`, math_utils.hpp:305-316.  The result vector starts zero-initialised and is
filled by the two loops; `none` is the failed `assert(false)` for `n_shift >= rank`. -/
def permuteCyclic (arr : List Nat) (nShift : Nat) : Option (List Nat) :=
  let rank := arr.length
  if rank ≤ nShift then none else
  some ((List.range rank).foldl (fun res i =>
    if i < rank - nShift then res.set (i + nShift) (arr.getD i 0)
    else res.set (i + nShift - rank) (arr.getD i 0)) (List.replicate rank 0))

/-- `get_inverse_permutation`, math_utils.hpp:324-332: `perm_inv[perm[i]] = i`.
An entry `perm[i] >= rank` writes out of bounds: `none`. -/
def getInversePermutation (perm : List Nat) : Option (List Nat) :=
  if perm.any (fun k => decide (perm.length ≤ k)) then none else
  some ((List.range perm.length).foldl (fun res i => res.set (perm.getD i 0) i)
    (List.replicate perm.length 0))

end Verif.Index
