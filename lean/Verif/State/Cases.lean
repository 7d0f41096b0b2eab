import Verif.State.Props
import Verif.State.PropsNorm
import Verif.State.PropsState

/-! Concrete cases that meet the hypotheses of C47 – C50 and C80. -/
namespace Verif.State

theorem case_compatible (x y : ℚ) : (exSt x).Compatible ⟨3, true⟩ (exSt y) := by
  simp [St.Compatible, St.buffers, Vert.buffers, RV.kept, exSt, exRV, SameGrid, exBuf]

example : ∃ z, stBin ⟨3, true⟩ (· + ·) (exSt (1 : ℚ)) (exSt 7) = .ok z := by
  obtain ⟨⟨z, h, -⟩, -⟩ := c49_linear ⟨3, true⟩ (exSt (1 : ℚ)) (exSt 7) 2 (case_compatible 1 7)
  exact ⟨z, h⟩

example : ∃ z z', stBin ⟨3, true⟩ (· + ·) (exSt (1 : ℚ)) (exSt 7) = .ok z ∧ stBin ⟨3, true⟩ (· + ·) (exSt (7 : ℚ)) (exSt 1) = .ok z' ∧
    z.numbers ⟨3, true⟩ = z'.numbers ⟨3, true⟩ :=
  (c49_laws ⟨3, true⟩ (exSt (1 : ℚ)) (exSt 7) (case_compatible 1 7) (case_compatible 7 1)).1

example : ∃ N, classNorm 2 [3, 4 * Complex.I] [1, 1] [0, 2] = .ok N ∧
    classNorm 2 ([3, 4 * Complex.I].map (5 * ·)) ([1, 1].map (5 * ·)) ([0, 2].map (5 * ·)) = .ok (‖(5:ℂ)‖ * N) :=
  c48_homogeneous_partial (p := 2) (by decide) [3, 4 * Complex.I] [1, 1] [0, 2] rfl rfl 5

example : classNorm 2 [3] [1, 1] [0, 2] = .error .assertion := (c48_sizes 2 (by decide) _ _ _).2 (by simp)

end Verif.State
