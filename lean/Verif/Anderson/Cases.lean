import Verif.Anderson.Props
import Mathlib.Tactic.FinCases
import Mathlib.LinearAlgebra.Prod

/-! Concrete cases that meet the hypotheses of C59. -/
namespace Verif.Anderson
open Finset

example : ∑ i ∈ range 3, alpha 3 (fun j => if j = 0 then 1 / 4 else -2) i = 1 := c59_sum_one 3 (by norm_num) _

/-- The first component of two iterates and of their images is 1. -/
example : ∃ x, update [((1, 2), (1, 5)), ((1, 0), (1, 7))] (1 / 2) (fun _ => 3) = .ok x ∧
    LinearMap.fst ℝ ℝ ℝ x = 1 :=
  c59_preserves (V := ℝ × ℝ) _ (by simp) _ _ (LinearMap.fst ℝ ℝ ℝ) 1 (by simp)

example : update [((4, 2), (4, 2)), ((4, 2), (4, 2))] (1 / 2) (fun _ => 3) = .ok ((4, 2) : ℝ × ℝ) :=
  c59_fixed_point _ (by simp) _ _ _ (by simp)

end Verif.Anderson
