import Verif.StepControl.Props

/-! Concrete cases that meet the hypotheses of C13, C14 and C72: smallest step 1/100000, largest 10, trial step −10. -/
namespace Verif.StepControl
open Classical

/-- The settings. -/
noncomputable def caseSettings : Settings := ⟨1/100000, 10, 1000, fun _ => False⟩

/-- An error estimate of 2 for the first three attempts and 1/2 after that. -/
noncomputable def caseErr (n : Nat) (_ : Option ℝ) : Err := if n < 3 then .num 2 else .num (1/2)

theorem case_numbers : ∀ n t, caseErr n (some t) ≠ .nan := by
  intro n t; unfold caseErr; split <;> simp

example : ∃ ex, run caseSettings caseErr 63 (-10) = some ex := by
  obtain ⟨ex, h, -⟩ := c13_terminates (s := caseSettings) (by norm_num [caseSettings]) case_numbers (t0 := -10) (by norm_num) 62
    (by norm_num [caseSettings, abs_of_neg])
  exact ⟨ex, h⟩

example : |nextStep caseSettings (-3/10) (.num (1/2)) false| ≤ 10 :=
  (c13_next_step (s := caseSettings) (by norm_num [caseSettings]) (by norm_num [caseSettings]) (t := -3/10) (by norm_num)
    (e := .num (1/2)) (by simp) false).2.2.1

example : ∃ k, ∃ ex, run caseSettings caseErr k (-10) = some ex := by
  obtain ⟨k, h⟩ := c14_numbers_partial (s := caseSettings) (by norm_num [caseSettings]) (t0 := -10) (by norm_num)
  exact ⟨k, h caseErr case_numbers⟩

example : proposal (-3/10) (.num (1/1000)) false = standardGrowth (1/1000) * (-3/10) :=
  c72_small_error_partial (by norm_num) (by norm_num)

end Verif.StepControl
