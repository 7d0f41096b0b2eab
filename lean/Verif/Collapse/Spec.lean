import Verif.Index.Spec
import Mathlib.Algebra.Order.Field.Rat

/- Specification of reductions over axes. -/
namespace Verif.Collapse
open Verif.Index

/-- Left fold of a non-empty list. -/
def reduceList (op : α → α → α) : List α → Option α
  | [] => none
  | x :: xs => some (xs.foldl op x)

/-- Element of a row-major array at a multi-index. -/
def elemAt [Zero α] (data : List α) (dims m : List Nat) : α := data.getD (rowMajor m dims) 0

/-- The multi-indices of the array whose components along the axes `axes` are `a`. -/
def Slice (dims axes a m : List Nat) : Prop := InRange m dims ∧ axes.map (m.getD · 0) = a

end Verif.Collapse
