/-
Outcomes of a C++ operation other than a value.  The code is compiled without `NDEBUG`
(no build file of the repository defines it), so failed assertions abort the program.
-/
namespace Verif

/-- Ways in which an operation of the code can fail to return a value. -/
inductive Fail where
  /-- a failed `assert` (program aborts) -/
  | assertion
  /-- a thrown C++ exception -/
  | exception
  /-- undefined behaviour: access outside an array, division by zero, … -/
  | undefined
  deriving DecidableEq, Repr

/-- Result of an operation: a value, or one of the failures. -/
abbrev Res (α : Type u) := Except Fail α

instance [DecidableEq α] : DecidableEq (Res α) := fun a b =>
  match a, b with
  | .ok x, .ok y => if h : x = y then isTrue (by rw [h]) else isFalse (by intro e; cases e; exact h rfl)
  | .error x, .error y => if h : x = y then isTrue (by rw [h]) else isFalse (by intro e; cases e; exact h rfl)
  | .ok _, .error _ => isFalse (by intro e; cases e)
  | .error _, .ok _ => isFalse (by intro e; cases e)

end Verif
