import Verif.FlowGrid.Props

/-! Concrete cases that meet the hypotheses of C19. -/
namespace Verif.FlowGrid

/-- A grid of five points with the identity as substitution. -/
example : (baseGrid (K := ℚ) id id 1 5 4).Pairwise (· > ·) :=
  (c19_base_grid (by norm_num) (by norm_num) (fun _ _ _ => rfl) (by norm_num) (fun _ _ _ h _ => h)).2.2.2

example : let r := addPoints ([10, 6, 1] : List ℚ) [12, 7, 3]; r.Pairwise (· ≥ ·) := by
  have h := c19_checkpoints_partial (g := ([10, 6, 1] : List ℚ)) (ini := 10) (fin := 1) (by decide +kernel) rfl rfl
    (cps := [12, 7, 3]) (by decide +kernel) (by decide +kernel)
  exact h.1

example : (addPoints ([10, 6, 1] : List ℚ) [12, 7, 3]).Pairwise (· > ·) :=
  c19_strict_partial (ini := 10) (fin := 1) (by decide +kernel) rfl rfl (by decide +kernel) (by decide +kernel)
    (by decide +kernel) (by decide +kernel)

example : checkpoints (K := ℚ) 1 (1/5) 10 [1/10, 1/2, 1] = ([1/10, 1/2, 1].map fun u => 2 * 1 / u - 1/5).filter fun y => decide (y ≤ 10) :=
  c19_derived_checkpoints (by decide +kernel)

end Verif.FlowGrid
