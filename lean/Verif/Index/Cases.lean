import Verif.Index.Props
import Verif.Index.PropsMore

/-! Concrete cases that meet the hypotheses of C01 – C03: the shape 2 × 3 × 4. -/
namespace Verif.Index

theorem case_in : InRange [1, 2, 0] [2, 3, 4] := by simp [InRange]

example : ∃ k, getFlatIndex [1, 2, 0] [2, 3, 4] = some k ∧ k < 24 := by
  obtain ⟨k, h, h', -⟩ := c01_mult_flat_mult [1, 2, 0] [2, 3, 4] (by decide) case_in
  exact ⟨k, h, h'⟩

example : ∃ indx, getMultIndex 17 [2, 3, 4] = some indx ∧ InRange indx [2, 3, 4] := by
  obtain ⟨i, h, h', -⟩ := c01_flat_mult_flat 17 [2, 3, 4] (by decide) (by decide)
  exact ⟨i, h, h'⟩

example : getFlatIndex [1, 2, 0] [2, 3, 4] ≠ getFlatIndex [1, 1, 0] [2, 3, 4] := fun h =>
  absurd (c01_injective [1, 2, 0] [1, 1, 0] [2, 3, 4] (by decide) case_in (by simp [InRange]) h) (by decide)

example : getMultIndex 5 [2, 0, 4] = none := (c01_division_by_zero 5 2 [0, 4] (by decide)).2 (by decide)

example : ¬ 4 < 4 := c02_rank_one_always_out_of_range 1 4 4 (by decide)

/-- Axis 1 last: 20 in the array 4 × 2 × 3 is the element (1, 2, 0). -/
example : rotateFlatIndex (rowMajor (cyc [1, 2, 0] 2) (cyc [2, 3, 4] 2)) [2, 3, 4] 1 = some 20 ∧
    rowMajor (cyc [1, 2, 0] 2) (cyc [2, 3, 4] 2) = 5 := by
  refine ⟨?_, by decide⟩
  rw [c03_rotate_same_element [1, 2, 0] [2, 3, 4] 1 (by decide) case_in]
  decide

example : ∃ m < 24, rotateFlatIndex 7 [2, 3, 4] 1 = some m := (c03_rotate_bijective [2, 3, 4] 1 (by decide)).1 7 (by decide)

example : (cyc [2, 3, 4] 2).getLast? = some 3 := c03_last_axis [2, 3, 4] 1 (by decide)

example : ∃ out, permuteCyclic [7, 8, 9] 2 = some out ∧ out[(0 + 2) % 3]? = some 7 := by
  obtain ⟨out, h, -, h'⟩ := c03_permute_cyclic [7, 8, 9] 2 (by decide)
  exact ⟨out, h, h' 0 (by decide)⟩

example : ∃ inv, getInversePermutation [2, 0, 1] = some inv ∧ inv[2]? = some 0 := by
  obtain ⟨inv, h, -, h', -⟩ := c03_inverse_permutation [2, 0, 1] (by decide) (by decide)
  exact ⟨inv, h, h' 0 (by decide)⟩

example : rotateFlatIndex 3 [2, 3] 2 = none := c03_rotate_no_axis 3 2 [2, 3] (by decide)

end Verif.Index
