import Verif.MultiArray.Model
import Verif.Index.Spec

/-
Abstract view: an array of a fixed shape is a map from in-range multi-indices to values.
-/
namespace Verif.MultiArray
open Verif Verif.Index

/-- Class invariant of an array of the given shape as every constructor from a shape and a value
establishes it. -/
def MArr.WF (m : MArr α) : Prop :=
  m.len ≠ [] ∧ m.elems.length = m.len.prod ∧ m.cum = cumulLength m.len

/-- `m` represents the map `s` on the in-range multi-indices of shape `dims`. -/
def Represents (m : MArr α) (dims : List Nat) (s : List Nat → α) : Prop :=
  m.WF ∧ m.len = dims ∧ ∀ idx, InRange idx dims → m.at idx = .ok (s idx)

/-- Operations on an array. -/
inductive Op (α : Type u) where
  /-- `a(idx) = v` -/
  | write (idx : List Nat) (v : α)
  /-- `a.set_vectorized(block, idx)` -/
  | writeBlock (idx : List Nat) (block : List α)
  /-- `a += b`, `a *= b`, … entrywise with another array representing the map `s` -/
  | zip (op : α → α → α) (rhs : MArr α) (s : List Nat → α)
  /-- `a *= c`, `a += c`, `a = a.abs()`, … -/
  | map (f : α → α)

/-- What the code does. -/
def Op.exec (m : MArr α) : Op α → Res (MArr α)
  | .write idx v => m.setAt idx v
  | .writeBlock idx block => m.setVectorized block idx
  | .zip op rhs _ => m.zipAssign op rhs
  | .map f => .ok (m.mapAssign f)

/-- What the operation means for the abstract map.  A block occupies the positions following
`idx` in row-major order. -/
def Op.meaning (dims : List Nat) (s : List Nat → α) : Op α → (List Nat → α)
  | .write idx v => fun j => if j = idx then v else s j
  | .writeBlock idx block => fun j =>
      let k := rowMajor j dims
      let k0 := rowMajor idx dims
      if k0 ≤ k then (block[k - k0]?).getD (s j) else s j
  | .zip op _ r => fun j => op (s j) (r j)
  | .map f => fun j => f (s j)

/-- Legal uses: in-range indices, blocks that fit, operands of equal shape. -/
def Op.Legal (dims : List Nat) : Op α → Prop
  | .write idx _ => InRange idx dims
  | .writeBlock idx block => InRange idx dims ∧ rowMajor idx dims + block.length ≤ dims.prod
  | .zip _ rhs r => Represents rhs dims r
  | .map _ => True

/-- Run a list of operations. -/
def runOps (m : MArr α) (ops : List (Op α)) : Res (MArr α) := ops.foldlM Op.exec m

end Verif.MultiArray
