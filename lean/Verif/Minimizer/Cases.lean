import Verif.Minimizer.Props
import Verif.Minimizer.PropsMore

/-! Concrete cases that meet the hypotheses of C62 and C63. -/
namespace Verif.Minimizer

example : Ordered (start 3) := c62_start 3 (by norm_num)

/-- A step to the right: the cost decreases. -/
theorem case_right : mstep (total fun x => -x) (start 1) = .next ⟨1, 2, 3⟩ := by
  norm_num [mstep, total, start, flt, fclose]

example : (⟨1, 2, 3⟩ : Tri) = ⟨(start 1).m, (start 1).b, 3 / 2 * (start 1).b⟩ := by
  rcases c62_moves _ _ _ case_right with ⟨h1, -⟩ | ⟨-, h⟩ | ⟨h1, -⟩
  · norm_num [start] at h1
  · exact h
  · norm_num [start] at h1

/-- A cost with its minimum at 1/4, to the left of the start values. -/
noncomputable def caseCost (x : ℝ) : ℝ := (x - 1/4) * (x - 1/4)

theorem case_unimodal : Unimodal caseCost (1/4) := by
  refine ⟨by norm_num, fun x y h1 h2 h3 => ?_, fun x y h1 h2 => ?_⟩ <;> simp only [caseCost] <;> nlinarith

theorem case_cost_eq {x y : ℝ} (hne : x ≠ y) (h : x + y ≠ 1/2) : caseCost x ≠ caseCost y := by
  intro hc
  have : (x - y) * (x + y - 1/2) = 0 := by simp only [caseCost] at hc; linarith
  rcases mul_eq_zero.1 this with h' | h'
  · exact hne (by linarith)
  · exact h (by linarith)

example : ∃ fuel t', mloop (total caseCost) fuel (start 1) = some (.handover t') := by
  refine c63_terminates_partial caseCost (1/4) case_unimodal (start 1) (c62_start 1 (by norm_num)) ?_ ?_ ?_ ?_ ?_
  · intro j
    have h2 : (0:ℝ) < 2 ^ j := by positivity
    refine case_cost_eq ?_ ?_
    · simp only [start, pow_succ]
      rw [Ne, div_eq_div_iff (by positivity) (by positivity)]
      intro h; nlinarith
    · simp only [start, pow_succ]
      intro h
      field_simp at h
      have h3 : (2:ℝ) ^ j * 2 = 3 := by nlinarith
      have h4 : (2 ^ j * 2 : ℕ) = 3 := by exact_mod_cast h3
      omega
  · intro j
    have h2 : (1:ℝ) ≤ 1.5 ^ j := one_le_pow₀ (by norm_num)
    refine case_cost_eq ?_ ?_ <;> simp only [start, pow_succ] <;> intro h <;> nlinarith
  all_goals norm_num [caseCost, start]

end Verif.Minimizer
