import Verif.Buffer.PropsShrink
import Verif.Buffer.PropsTails
import Verif.Buffer.PropsRough
import Verif.Buffer.PropsSteps

/-! Concrete cases that meet the hypotheses of C121 – C124. -/
namespace Verif.Buffer
open Verif Verif.Index Verif.MultiArray Verif.Interp Verif.FreqGrid

theorem case_complete : Complete exData.len.prod [0, 1, 0, 2, 1, 2, 3, 4, 3, 4] := by
  intro k; simp [exData]; omega

theorem case_own : OwnBox id id [exAxis] (1/10^5) :=
  ownBox_centred (by norm_num) (by
    intro a ha
    simp only [List.mem_singleton] at ha
    subst ha
    refine ⟨exBuffer.valid _ (by simp), rfl, by simp [exAxis, keldyshGrid]⟩) (fun _ => rfl)

/-- The share of the outermost values of the list 1, −4, 2. -/
example : ∃ T q, analyzeTails (fun x : ℚ => |x|) id [1, -4, 2] [3] 0 0 [2, 0, 1] = .ok (if T = 0 then none else some (q / T)) ∧
    IsGreatest {x | ∃ y ∈ [(1 : ℚ), -4, 2], x = |y|} T := by
  obtain ⟨T, q, h1, -, h2, -⟩ := c123_share (fun x : ℚ => |x|) id (fun q h => abs_of_nonneg h) (fun x => abs_nonneg x)
    [1, -4, 2] [3] 0 0 [2, 0, 1] (by decide) (by decide) rfl (by decide) (by decide)
  exact ⟨T, q, h2, h1⟩

example : analyzeTails (fun x : ℚ => |x|) id [1, -4, 2] [3] 0 3 [2, 0, 1] = .error .undefined :=
  c123_index (fun x : ℚ => |x|) id (fun q h => abs_of_nonneg h) (fun x => abs_nonneg x)
    [1, -4, 2] [3] 0 3 [2, 0, 1] (by decide) (by decide) rfl (by decide) (by decide)

example : tailSE (3 : ℚ) 4 (fun i => .ok (i : ℚ)) 3 = .ok ((3 : Int) : ℚ) :=
  (c122_selfenergy (n := 4) (val := fun i => .ok (i : ℚ)) (by norm_num) rfl rfl 0).2.2.2

example : tailK1 (3 : ℚ) (fun i => .ok (i : ℚ)) (-5) = .ok (powerTail 2 (-3) (-5) ((0 : Int) : ℚ)) :=
  (c122_one_frequency_partial (n := 4) (val := fun i => .ok (i : ℚ)) (by norm_num) rfl rfl (-5)).1 (by norm_num)

end Verif.Buffer
