import Verif.Keldysh.Props
import Mathlib.Analysis.Complex.Basic

/-! Concrete cases that meet the hypotheses of C31 – C34. -/
namespace Verif.Keldysh

/-- Exchange of legs in the channel `a`: 1221 and 1122 in the numbering of the code. -/
example : rotate .a true 6 = 3 ∧ rotate .a true 3 = 6 := by decide

example : (7 : Nat) = 7 := c32_injective .a true (by norm_num) (by norm_num) rfl

/-- A component of the bubble that vanishes, next to one that does not. -/
example : value (R := ℂ) ⟨Complex.I, 2⟩ ⟨3, Complex.I⟩ 5 = 0 ∧ value (R := ℂ) ⟨Complex.I, 2⟩ ⟨3, Complex.I⟩ 14 ≠ 0 := by
  refine ⟨(c34_zero _ _ ⟨0, 0⟩ ⟨0, 0⟩ (by decide)).1, ?_⟩
  simp [value]

/-- One entry of the 4 × 4 matrix against the product of the propagators. -/
example : piMatrix .p (!![1, 2; 3, 4] : Matrix (Fin 2) (Fin 2) ℤ) !![5, 6; 7, 8] 1 2 = 3 * 6 ∨
    piMatrix .p (!![1, 2; 3, 4] : Matrix (Fin 2) (Fin 2) ℤ) !![5, 6; 7, 8] 1 2 = 2 * 7 := by
  right
  exact (c33_pair_matrix (!![1, 2; 3, 4] : Matrix (Fin 2) (Fin 2) ℤ) !![5, 6; 7, 8] 0 1 1 0).1

/-- A component of the integrand that is stored after the matrix product: with all vertices equal to one the value is
the sum of the components of the bubble. -/
example : writeBack .p (integrandMatrix .p (fun _ => 1) (fun _ => 1)
      (piMatrix .p (⟨Complex.I, 2⟩ : Prop2 ℂ).matrix (⟨3, Complex.I⟩ : Prop2 ℂ).matrix)) (fun _ => 0) 6
    = integrandScalar .p (fun _ => 1) (fun _ => 1) (value ⟨Complex.I, 2⟩ ⟨3, Complex.I⟩) 6 :=
  c33_stored .p _ _ _ _ _ 6 (by norm_num)

end Verif.Keldysh
