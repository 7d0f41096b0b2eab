import Verif.Hartree.Props

/-! Concrete cases that meet the hypotheses of C60, C61 and C78: the map `x ↦ (1 - x) / 2` with the solution 1/3. -/
namespace Verif.Hartree

/-- The map. -/
noncomputable def caseMap (x : ℝ) : ℝ := (1 - x) / 2

theorem case_unit : ∀ x ∈ Set.Icc (0:ℝ) 1, caseMap x ∈ Set.Icc (0:ℝ) 1 := by
  intro x hx
  constructor <;> simp only [caseMap] <;> linarith [hx.1, hx.2]

theorem case_lipschitz : ∀ x y, |caseMap x - caseMap y| ≤ 1/2 * |x - y| := by
  intro x y
  rw [show caseMap x - caseMap y = -(1/2) * (x - y) by simp only [caseMap]; ring, abs_mul]
  norm_num [abs_of_pos]

example (k : ℕ) (lo hi : ℝ) (h : bracketAfter (total caseMap) (1/100) k = .going lo hi) : hi - lo = (1/2) ^ k :=
  (c60_bracket caseMap case_unit (1/100) k lo hi h).2.2.2.2.1

/-- The state at the start is of that kind. -/
example : bracketAfter (total caseMap) (1/100) 0 = .going 0 1 := rfl

example : ∃ N, ∀ budget, N < budget → ∃ n, bracketing budget (total caseMap) (1/100) = .ok n ∧ Solves caseMap (1/100) n := by
  obtain ⟨N, h⟩ := c60_terminates_continuous caseMap case_unit
    (by unfold caseMap; fun_prop) (1/100) (by norm_num)
  exact ⟨N, fun b hb => by obtain ⟨n, h1, -, h2⟩ := h b hb; exact ⟨n, h1, h2⟩⟩

example (n : ℝ) (hn : Solves caseMap (1/100) n) : |n - 1/3| ≤ 1/100 :=
  c60_accuracy caseMap (by intro x y h; simp only [caseMap]; linarith) _ _ _ hn (by simp only [caseMap]; norm_num)

example : (∃ n, bracketing 10 (total caseMap) (1/100) = .ok n ∧ Solves caseMap (1/100) n) ∨
    bracketing 10 (total caseMap) (1/100) = .error .assertion :=
  c61_bracketing_sound_partial caseMap (1/100) (by norm_num) (by norm_num) 10

/-- From the start 0 the iteration ends after at most ten steps, within 1/200 of a solution. -/
example : ∃ n, fixLoop (total caseMap) (1/100) 10 0 = some (some n) ∧ Solves caseMap (1/2 * (1/100)) n := by
  obtain ⟨n, h⟩ := c61_iteration_terminates_partial caseMap (1/2) (1/100) case_lipschitz (by norm_num) 9 0
    (by simp only [caseMap]; norm_num [abs_of_pos])
  exact ⟨n, h, c61_iteration_partial caseMap (1/2) (1/100) case_lipschitz (by norm_num) 10 0 n h⟩

end Verif.Hartree
