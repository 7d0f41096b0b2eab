import Verif.Boost.PropsCheckpoints
import Verif.Boost.PropsRun

/-! Concrete cases that meet the hypotheses of C125 and C126: a run from 1 down to 0 with the checkpoint 3/5. -/
namespace Verif.Boost

deriving instance DecidableEq for St, Except

/-- Identity parametrisation, at most three steps with five trials each. -/
def caseCfg : Cfg ℚ := ⟨id, id, 0, [3/5], 5, 3, 0⟩

/-- The state at the start. -/
def caseStart : St ℚ := ⟨1, -1/2, false, 0, 0, [1, 0, 0, 0]⟩

/-- The state after the first step, which ends at the checkpoint. -/
def caseNext : St ℚ := ⟨3/5, -2/5, true, -1/2, 1, [1, 3/5, 0, 0]⟩

theorem case_directed : Directed caseCfg (-1) 1 := ⟨Or.inr rfl, le_rfl, by norm_num [caseCfg]⟩

theorem case_param : Param caseCfg (-1) 1 1 := by
  refine ⟨Or.inl rfl, fun _ _ => rfl, fun s t _ _ h => by simpa [caseCfg] using h, ?_⟩
  intro cp hcp s t hs ht hx
  simp only [caseCfg, List.mem_singleton] at hcp
  subst hcp
  exact ⟨by constructor <;> norm_num [caseCfg], rfl⟩

theorem case_inv : Inv caseCfg (-1) 1 caseStart :=
  ⟨by constructor <;> norm_num [caseCfg, caseStart], by norm_num [caseStart], by simp [caseStart]⟩

theorem case_step : iterate caseCfg accepting caseStart = .ok (some caseNext) := by decide +kernel

theorem case_reach : Reach caseCfg accepting caseStart caseNext := .step .refl case_step

/-- The state after the second step: the length of the step before the checkpoint is restored. -/
def caseThird : St ℚ := ⟨1/10, -1/2, true, -1/2, 2, [1, 3/5, 1/10, 0]⟩

theorem case_second : iterate caseCfg accepting caseNext = .ok (some caseThird) := by decide +kernel

/-- The last state. -/
def caseLast : St ℚ := ⟨0, -1/10, true, -1/2, 3, [1, 3/5, 1/10, 0]⟩

theorem case_third : iterate caseCfg accepting caseThird = .ok (some caseLast) := by decide +kernel

example : InBox caseCfg (-1) 1 caseNext.t :=
  (c125_interval accepting_contract case_directed case_param case_inv case_reach).1

example : (-1) * caseNext.t < (-1) * caseThird.t :=
  c125_progress_partial accepting_contract case_directed case_param case_inv case_reach case_second (by decide)

example : |caseCfg.fin - caseLast.t| ≤ caseCfg.eps :=
  c125_end accepting_contract case_directed case_param case_inv
    (.step (.step case_reach case_second) case_third) (by decide +kernel)

example : ∀ cp ∈ caseCfg.cps, ¬ Crosses (caseCfg.lamOf caseStart.t) (caseCfg.lamOf caseNext.t) cp :=
  c126_no_skip_partial accepting_contract case_directed case_param (by simp [caseCfg]) case_inv case_step

example : ∃ cp ∈ caseCfg.cps, caseCfg.lamOf caseNext.t = cp ∧ caseNext.hit = true :=
  c126_lands accepting_contract case_directed case_param case_inv case_step
    ⟨3/5, by simp [caseCfg], by unfold Crosses; decide +kernel⟩ (by decide +kernel)

example : caseLast.hit = true := c126_flag (.step (.step .refl case_second) case_third) rfl

example : ∀ s', loop caseCfg accepting 9 caseStart = .ok s' → s'.count ≤ 3 :=
  (c125_bounded 9 caseStart (by decide) (by decide)).2

/-- Descending run from 1 to 0 with a positive first step of the configuration. -/
example : 0 < firstStep (id : ℚ → ℚ) (1/2) 1 0 3 * (id 0 - id 1) :=
  c125_first_step (τ := 1) (Or.inl rfl) (by norm_num) (by norm_num) (by intro x y h _; simpa using h) (by norm_num)

/-- A whole run with the checkpoint 3/5; it uses up its four steps. -/
example : (⟨1/10, -1/4, true, -1/4, 4, [1, 3/4, 3/5, 7/20, 1/10]⟩ : St ℚ).count ≤ 3 + 1 :=
  (c125_run (tOf := id) (lamOf := id) (eps := 0) (d := 1/2) (ini := 1) (fin := 0) (cps := [3/5]) (maxSteps := 3)
    (maxTrials := 5) (rk := accepting) accepting_contract (σ := -1) (τ := 1) (τ' := 1)
    ⟨Or.inr rfl, le_rfl, by norm_num⟩
    ⟨Or.inl rfl, fun _ _ => rfl, fun s t _ _ h => by simpa using h, by
      intro cp hcp s t hs ht hx
      simp only [List.mem_singleton] at hcp
      subst hcp
      exact ⟨by constructor <;> norm_num, rfl⟩⟩
    (Or.inl rfl) (by norm_num) (by norm_num) (by intro x y h _; simpa using h) (by norm_num)
    (by decide +kernel)).2.2.1

end Verif.Boost
