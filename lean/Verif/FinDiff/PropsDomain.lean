import Verif.FinDiff.Props

/-
C42, C43: grids that do not fit are refused.
-/
namespace Verif.FinDiff
variable {K W : Type} [Field K] [LinearOrder K] [AddCommGroup W] [Module K W]

/-- **C43** (domain). Grids of another length than the last dimension, and grids with fewer points than the rule needs, are
refused by an assertion before anything is read. -/
theorem c43_refused (line : (Nat → Res K) → (Nat → Res W) → Nat → Res W) (minPoints : Nat) (data : List W) (xs : List K)
    (dims perm order : List Nat) (n : Nat) (hn : dims.getLast? = some n) (h : n ≠ xs.length ∨ xs.length < minPoints) :
    finDiff line minPoints data xs dims perm order = .error .assertion := by
  simp only [finDiff, hn]
  split_ifs with h1 h2 <;> first | rfl | (exfalso; push Not at h1; omega)

/-- **C43** (domain). So are axes that do not exist. -/
theorem c43_no_axis (line : (Nat → Res K) → (Nat → Res W) → Nat → Res W) (minPoints : Nat) (data : List W) (xs : List K)
    (dims order : List Nat) (iDim : Nat) (h : dims.length ≤ iDim) :
    partialDerivVec line minPoints data xs dims iDim order = .error .assertion := by
  simp [partialDerivVec, h]

end Verif.FinDiff
