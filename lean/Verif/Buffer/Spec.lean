import Mathlib.Algebra.Module.Defs
import Mathlib.Algebra.Order.Field.Rat
import Mathlib.Algebra.Order.AbsoluteValue.Basic

/-
Vocabulary for tails, independent of the code.
-/
namespace Verif.Buffer

/-- Continuation of the value `x`, stored at the frequency `w0`, to the frequency `w` with the power law
`|w|^(-p)`. -/
def powerTail {V : Type} [AddCommMonoid V] [Module ℚ V] (p : Nat) (w0 w : ℚ) (x : V) : V :=
  (|w0| / |w|) ^ p • x

end Verif.Buffer
