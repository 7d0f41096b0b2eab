import Verif.Flow.Props
import Verif.Flow.PropsResume

/-! Concrete cases that meet the hypotheses of C15 – C18. -/
namespace Verif.Flow

deriving instance DecidableEq for St

/-- A flow from 1 down to 1/10 with at most three steps and no checkpoints. -/
def caseCfg : Config ℚ := ⟨3, 1, 1, 1/10, 0, []⟩

/-- The state after the first step. -/
def caseNext : St ℚ := ⟨1, 1/2, 1/2, -1/2, -1/2, false, [1, 1/2, 0, 0]⟩

/-- The last state. -/
def caseLast : St ℚ := ⟨2, 1/10, 1/10, -2/5, -2/5, false, [1, 1/2, 1/10, 0]⟩

theorem case_first : iterate caseCfg fullStep (start caseCfg [1, 0, 0, 0] (-1/2)) = some caseNext := by decide +kernel

theorem case_second : iterate caseCfg fullStep caseNext = some caseLast := by decide +kernel

theorem case_end : iterate caseCfg fullStep caseLast = none := by decide +kernel

theorem case_reach : Reach caseCfg fullStep (start caseCfg [1, 0, 0, 0] (-1/2)) caseNext := .step .refl case_first

example : Between 1 (1/10) caseNext.lam ∧ Between caseNext.lam (1/10) caseLast.lam :=
  have h := c15_interval_partial fullStep_contract rfl case_reach
  ⟨h.1, h.2 _ case_second⟩

example : |caseCfg.fin - caseLast.lam| < caseCfg.fin / 10^8 :=
  c15_end_reached_partial (by norm_num [caseCfg]) case_end

example : iterate caseCfg fullStep caseLast = none :=
  c15_stops_at_end (by norm_num [caseCfg]) rfl rfl (by norm_num [caseLast])

/-- After the step to a checkpoint the step length before it is taken up again, counted from the checkpoint. -/
example : (4/5 : ℚ) + afterHit (⟨1, 4/5, 4/5, -1/5, -1/2, true, [1, 4/5]⟩ : St ℚ) (-1/5) = 1 + -1/2 :=
  c15_after_checkpoint_partial (c := caseCfg) (s := ⟨1, 4/5, 4/5, -1/5, -1/2, true, [1, 4/5]⟩) (lam0 := 1) rfl
    (by norm_num) (by norm_num)

/-- A flow with the checkpoints 4/5 and 3/5. -/
def caseCp : Config ℚ := ⟨50, 1, 1, 1/10, 0, [4/5, 3/5]⟩

example : ∀ cp ∈ caseCp.checkpoints, ¬ Crosses 1 (4/5 : ℚ) cp :=
  (c16_no_skip_partial (c := caseCp) (s := start caseCp [1, 0, 0, 0] (-1/2))
    (s' := ⟨1, 4/5, 4/5, -1/5, -1/2, true, [1, 4/5, 0, 0]⟩) fullStep_contract rfl (by decide +kernel)
    (Or.inl ⟨by norm_num, by decide +kernel⟩)).1

example : resumeTry (K := ℚ) id id 10 (1/1000) 1 3 3 = 3 + (3 - 1) - 3 :=
  c17_increasing_partial (tOf := id) (lamOf := id) (by norm_num) (by norm_num) (by norm_num)

example : initialTry (K := ℚ) id id 10 (1/1000) ⟨50, 1, 3, 10, 2, []⟩ [1, 2, 3] [1, 2, 3] = .ok (id (id 3 + (id 3 - id 2)) - 3) :=
  c17_resume_partial id id 10 (1/1000) ⟨50, 1, 3, 10, 2, []⟩ _ _ 2 3 (by norm_num) rfl rfl rfl (by norm_num) (by norm_num)
    (by norm_num)

/-- Even for a descending sequence the first step of a continued flow has between the minimal and the maximal length. -/
example : ∃ d : ℚ, 1/1000 ≤ d ∧ d ≤ 10 ∧ resumeTry id id 10 (1/1000) 3 2 2 = id (id 2 + d) - 2 :=
  c17_limits_partial id id 10 (1/1000) 3 2 2 (by norm_num) (by norm_num)

example : (solve caseCfg fullStep [1, 0, 0, 0] (-1/2)).1.i ≤ 3 :=
  (c18_bounded (c := caseCfg) (rk := fullStep) (lambdas := [1, 0, 0, 0]) (h := -1/2) rfl (by decide)).2.1

example : caseNext.saved[1]? = some (1/2 : ℚ) :=
  (c18_record (s := caseNext) (by decide) rfl case_reach).2.1

end Verif.Flow
