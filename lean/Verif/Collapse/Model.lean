import Verif.Index.Model
import Verif.Util.Loops
import Mathlib.Algebra.Order.Field.Rat

/-
Model of the reductions of /repo/source/utilities/math_utils.hpp:718-824.
-/
namespace Verif.Collapse
open Verif Verif.Index

/-- One iteration of the loop at math_utils.hpp:743-759 that builds `perm_rot` (and, with the same
positions, `dims_rot`); state: the partly filled array and `iter_col`.  The inner loop keeps the last `j`
with `i_dims[j] == i`. Writing outside the array is undefined. -/
def permStep (rank : Nat) (iDims : List Nat) (st : List (Option Nat) × Nat) (i : Nat) :
    Res (List (Option Nat) × Nat) :=
  match (List.range iDims.length).foldl (fun acc j => if iDims[j]? = some i then some j else acc) none with
  | some j => if j < rank then .ok (st.1.set j (some i), st.2) else .error .undefined
  | none =>
    if st.2 + 1 ≤ rank then .ok (st.1.set (rank - st.2 - 1) (some i), st.2 + 1) else .error .undefined

/-- `perm_rot`, math_utils.hpp:739-759; entries never written are uninitialised (`undefined`). -/
def permRot (rank : Nat) (iDims : List Nat) : Res (List Nat) := do
  let st ← (List.range rank).foldlM (permStep rank iDims) (List.replicate rank none, 0)
  st.1.mapM fun o => match o with
    | some x => .ok x
    | none => .error .undefined

def toRes : Option α → Res α
  | some x => .ok x
  | none => .error .undefined

/-- Position in `data` read for the flat index `k` of the rotated array. -/
def readRot (data : List α) (dimsRot permInv : List Nat) (k : Nat) : Res α := do
  let p ← toRes (rotateFlatIndexPerm k dimsRot permInv)
  toRes data[p]?

/-- `collapse`, math_utils.hpp:731-777; `order` is the order in which the iterations of the parallel loop
are performed.  (`dims_new` is not used by the code.) -/
def collapse [Zero α] (op : α → α → α) (data : List α) (dims iDims : List Nat) (order : List Nat) :
    Res (List α) := do
  let kept ← iDims.mapM (fun i => toRes dims[i]?)
  let flatNew := kept.foldl (· * ·) 1
  if flatNew = 0 then .error .undefined else
  let dimCollapse := dims.foldl (· * ·) 1 / flatNew
  let perm ← permRot dims.length iDims
  let dimsRot ← perm.mapM (fun i => toRes dims[i]?)
  let permInv ← toRes (getInversePermutation perm)
  runLoop (fun i _ => do
    let first ← readRot data dimsRot permInv (i * dimCollapse + 0)
    (List.range' 1 (dimCollapse - 1)).foldlM (fun acc j => do
      let x ← readRot data dimsRot permInv (i * dimCollapse + j)
      .ok (op acc x)) first) order (List.replicate flatNew 0)

/-- `maxabs`, math_utils.hpp:809-819.  `absf` is `std::abs`, `emb` the cast of a real number to the data
type. -/
def maxabs [Zero α] (absf : α → ℚ) (emb : ℚ → α) (data : List α) (dims : List Nat) (iDim : Nat)
    (order : List Nat) : Res (List ℚ) := do
  let d ← toRes dims[iDim]?
  if data.length = d then .ok (data.map absf) else
  let r ← collapse (fun l r => emb (max (absf l) (absf r))) data dims [iDim] order
  .ok (r.map absf)

/-! ### The unsynchronised reduction -/

/-- Atomic steps of the threads of `collapse_all` (math_utils.hpp:782-790): iteration `j` first reads the
shared variable `result` into a register, then stores `op(register, data[j])`. -/
inductive Ev where
  | load (j : Nat)
  | store (j : Nat)
  deriving DecidableEq, Repr

/-- Shared variable and the registers of the iterations. -/
structure RState (α : Type) where
  result : α
  regs : List (Nat × α)

def RState.step (op : α → α → α) (data : List α) (s : RState α) : Ev → Res (RState α)
  | .load j => .ok { s with regs := (j, s.result) :: s.regs }
  | .store j =>
    match s.regs.lookup j, data[j]? with
    | some r, some x => .ok { s with result := op r x }
    | _, _ => .error .undefined

/-- `collapse_all` under the interleaving `evs`. -/
def collapseAll (op : α → α → α) (data : List α) (evs : List Ev) : Res α :=
  if data.length ≤ 1 then .error .assertion else
  match data with
  | [] => .error .undefined
  | x :: _ => do
    let s ← evs.foldlM (RState.step op data) ⟨x, []⟩
    .ok s.result

/-- Program order of one thread executing iterations `1 … n-1`. -/
def sequentialEvents (n : Nat) : List Ev := (List.range' 1 (n - 1)).flatMap fun j => [Ev.load j, Ev.store j]

/-- Interleavings allowed by the loop: every iteration performs its load once and its store once,
the load first. -/
def Interleaving (n : Nat) (evs : List Ev) : Prop :=
  evs.Perm (sequentialEvents n) ∧
  ∀ j ∈ List.range' 1 (n - 1), evs.idxOf (Ev.load j) < evs.idxOf (Ev.store j)

end Verif.Collapse
