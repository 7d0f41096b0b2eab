import Verif.Collapse.Props

/-
C44: arguments outside the domain.
-/
namespace Verif.Collapse
open Verif Verif.Index

/-- **C44** (domain). A kept axis that does not exist makes the reduction read outside the list of dimensions. -/
theorem c44_domain_axis {α : Type} [Zero α] (op : α → α → α) (data : List α) (dims axes : List Nat) (order : List Nat) (i : Nat)
    (rest : List Nat) (h : axes = i :: rest) (hi : dims.length ≤ i) : collapse op data dims axes order = .error .undefined := by
  subst h
  have : dims[i]? = none := List.getElem?_eq_none hi
  simp [collapse, toRes, this, List.mapM_cons, bind, Except.bind]

/-- **C44** (domain). The largest modulus along an axis that does not exist is undefined as well. -/
theorem c44_domain_maxabs {α : Type} [Zero α] (absf : α → ℚ) (emb : ℚ → α) (data : List α) (dims : List Nat) (i : Nat)
    (order : List Nat) (hi : dims.length ≤ i) : maxabs absf emb data dims i order = .error .undefined := by
  have : dims[i]? = none := List.getElem?_eq_none hi
  simp [maxabs, toRes, this, bind, Except.bind]

/-- **C44** (domain). Naming an axis twice makes the permutation table incomplete: an uninitialised entry is read. -/
theorem c44_domain_repeated : permRot 2 [0, 0] = .error .undefined := by decide +kernel

/-- **C44** (domain). An empty axis that is kept makes the size of the reduced axes a division by zero. -/
theorem c44_domain_empty {α : Type} [Zero α] (op : α → α → α) (data : List α) (order : List Nat) :
    collapse op data [2, 0] [1] order = .error .undefined := rfl

end Verif.Collapse
