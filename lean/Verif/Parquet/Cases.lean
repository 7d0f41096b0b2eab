import Verif.Parquet.Props
import Verif.Parquet.PropsWindow

/-! Concrete cases that meet the hypotheses of C55 – C58. -/
namespace Verif.Parquet

/-- The iteration of `x ↦ x / 2`, with the deviations of the vertex relative and those of the self-energy zero. -/
noncomputable def caseProblem (mix : ℝ) : Problem ℝ where
  rhs := fun x => x / 2
  upd := plainMixing mix
  relV := fun x y => some (|x - y| / |y|)
  relS := fun _ _ => some 0

example : parquetSolver (caseProblem 1) none 8 (1/10) 5 true 1 false = .ok (.ran 8 (solve (caseProblem 1) (1/10) 5 1 8)) :=
  (c55_entry (caseProblem 1) none 8 (1/10) 5 1 false).1 (Or.inr rfl)

example : isConverged (1/10) (some (1/5)) (some 0) = false := c56_partial _ _ _ (Or.inl ⟨1/5, rfl, by norm_num⟩)

/-- A deviation of the step of a tenth bounds the residual: `x = 1`, `f x = 9 / 10`, no mixing. -/
example : |(1:ℝ) - 9/10| ≤ (1/5) / 1 * |(1:ℝ) • (9/10) + (1 - 1 : ℝ) • (1:ℝ)| :=
  c58_residual (fun x : ℝ => 9/10 * x) (fun x => |x|) (fun c x => by rw [smul_eq_mul, abs_mul]) 1 (1/5) one_pos 1
    (by norm_num) (by norm_num [abs_of_pos]) |> (by simpa using ·)

example (k : ℕ) : 1 / 100 ≤ (after (caseProblem (1/2)) (1/10) (1/2) 8 k).mix :=
  (c55_mixing (caseProblem (1/2)) (1/10) (1/2) 8 k (by norm_num)).1

end Verif.Parquet
