import Verif.MultiArray.Props
import Verif.MultiArray.PropsSafety

/-! Concrete cases that meet the hypotheses of C04 – C06 and C71: an array of shape 2 × 3. -/
namespace Verif.MultiArray
open Verif Verif.Index

/-- The array with the elements 0, 1, …, 5. -/
def caseArr : MArr ℕ := (MArr.ofContainer [2, 3] [0, 1, 2, 3, 4, 5]).toOption.getD (MArr.make [1] 0)

theorem case_wf : caseArr.WF := by
  obtain ⟨m, h, h', -⟩ := c71_constructor_partial [2, 3] [0, 1, 2, 3, 4, 5] (by decide) (by decide)
  simp only [caseArr, h]
  exact h'

theorem case_in1 : InRange [1, 1] caseArr.len := by
  show InRange [1, 1] [2, 3]
  simp [InRange]

theorem case_in : InRange [1, 2] [2, 3] := by simp [InRange]

example : ∃ m', runOps (MArr.make [2, 3] 0) [.write [1, 2] 7] = .ok m' :=
  let ⟨m', h, _⟩ := c04_operations_refine_map [2, 3] [.write [1, 2] 7] (by simp [Op.Legal, InRange]) _ _ (c04_make [2, 3] 0 (by decide))
  ⟨m', h⟩

example : caseArr.at [2, 0] = .error .assertion :=
  (c04_out_of_range caseArr [2, 0] 0 rfl (by simp [caseArr, InRange, MArr.ofContainer]; decide)).1

example : (MArr.make [2, 3] 1).zipAssign (· + ·) (MArr.make [3, 2] 1) = .error .assertion :=
  c04_shape_mismatch _ _ _ (by decide)

example : Represents ((MArr.make [4] 0).assign (MArr.make [2, 3] 5)) [2, 3] (fun _ => 5) :=
  c05_assign _ _ _ _ (c04_make [2, 3] 5 (by decide))

example : caseArr.swap (MArr.make [2, 3] 9) = (MArr.make [2, 3] 9, caseArr) :=
  c05_swap_same_shape_partial _ _ case_wf (c04_make [2, 3] 9 (by decide)).1 rfl

example : ∃ blk, caseArr.atVectorized 2 [1, 1] = .ok blk ∧ blk.length = 2 := by
  obtain ⟨b, h, h', -⟩ := c06_block_read caseArr case_wf [1, 1] 2 case_in1 (by decide)
  exact ⟨b, h, h'⟩

example : caseArr.atVectorized 3 [1, 1] = .error .assertion :=
  (c06_block_too_long caseArr case_wf [1, 1] 3 case_in1 (by decide)).1

example : caseArr.blockAt [0, 1] [2, 2] [1, 1] = caseArr.at [1, 2] :=
  c06_block_view caseArr case_wf [0, 1] [2, 2] [1, 1] rfl rfl rfl (by simp [InRange])

example : ∃ v, caseArr.blockVec [0, 1] [2, 2] = .ok v ∧ v.length = 4 := by
  obtain ⟨v, h, h', -⟩ := c06_block_vec caseArr case_wf [0, 1] [2, 2] rfl rfl rfl
  exact ⟨v, h, h'⟩

end Verif.MultiArray
