import Mathlib.Data.List.Forall2
import Mathlib.Algebra.BigOperators.Group.List.Basic
/-
Vocabulary for the indexing properties, independent of the code.
-/
namespace Verif.Index

/-- The multi-index lies inside the shape: same rank, each entry below its extent. -/
def InRange (indx dims : List Nat) : Prop := List.Forall₂ (· < ·) indx dims

/-- Number of elements of an array of the given shape. -/
def numElems (dims : List Nat) : Nat := dims.prod

/-- Row-major position: each index is weighted by the product of the extents after it. -/
def rowMajor : List Nat → List Nat → Nat
  | i :: is, _ :: ds => i * ds.prod + rowMajor is ds
  | _, _ => 0

/-- The list obtained by moving the first `k` entries to the end: axis `k-1` becomes last. -/
def cyc (l : List α) (k : Nat) : List α := l.drop k ++ l.take k

end Verif.Index
