import Verif.Angular.Props
import Verif.Angular.PropsPolar

/-! Concrete cases that meet the hypotheses of C108 – C110. -/
namespace Verif.Angular

/-- The grid with 17 points in 8 intervals on `[-3, 3]`. -/
theorem case_grid : (build 17 8 3 false).Valid ∧ (build 17 8 3 false).Built :=
  build_ok 17 8 (by norm_num) (by norm_num) 3 (by norm_num) false

example : StrictMono (build 17 8 3 false).freq := (c108_increasing case_grid.1).1

example : (build 17 8 3 false).tOf ((build 17 8 3 false).freq 1) = 1 := (c108_inverse case_grid.1).1 1

example : (build 17 8 3 false).all 0 = -3 ∧ (build 17 8 3 false).all 16 = 3 := by
  have h := c109_points_partial case_grid.1 case_grid.2
  exact ⟨by simpa [build] using h.1, by simpa [build] using h.2.1⟩

example : (build 17 8 3 false).all (17 - 1 - 2) = -(build 17 8 3 false).all 2 :=
  c109_symmetric_partial case_grid.1 case_grid.2 rfl 2 (by simp [build])

example : ∃ i : Nat, (build 17 8 3 false).index (1 / 10 ^ 15) (1 / 10 ^ 5) 1 = .ok (i : Int) ∧ i + 1 < 17 := by
  obtain ⟨i, h, h', -⟩ := c109_lookup_partial case_grid.1 case_grid.2 (1 / 10 ^ 15) (1 / 10 ^ 5) (by norm_num)
    (by norm_num) 1 (by simp [build]; norm_num) (by simp [build])
  exact ⟨i, h, by simpa [build] using h'⟩

example : (build 17 8 3 false).index (1 / 10 ^ 15) (1 / 10 ^ 5) 4 = .ok 15 := by
  have h := (c109_outside_partial case_grid.1 case_grid.2 (1 / 10 ^ 15) (1 / 10 ^ 5) (by norm_num)
    (by norm_num) 4).1 (by simp [build]; norm_num)
  simpa [build] using h

/-- The grid of the boson frequency of K3. -/
example : (build 17 8 Real.pi false).Valid ∧ (build 17 8 Real.pi false).Built := by
  have h := c109_made_partial ⟨3, true⟩ ⟨1, 1, 17, 1, 1⟩ false (build 17 8 Real.pi false) rfl (by simp [build])
  exact ⟨h.1, h.2.1⟩

example : k3In (k3Out (2, 1, 1)) = (2, 1, 1) := by
  have := Real.pi_gt_three
  exact c110_three_back_partial 2 1 1 (by norm_num) (by linarith) (by linarith) (by norm_num) (by linarith)

example : k3Out (k3In (0, 0, 0)) = (0, 0, 0) := (c110_three_partial (0, 0, 0)).1 (Or.inr rfl)

end Verif.Angular
