import Verif.Hybrid.Props

/-! Concrete cases that meet the hypotheses of C105 – C107: five points, the quadratic part up to 1, the linear part up to 3
and the last frequency 15. -/
namespace Verif.Hybrid

/-- The grid of the cases. -/
noncomputable def caseGrid : Grid := make 5 false (1, 3, 15)

theorem case_built : caseGrid.Valid ∧ caseGrid.Built :=
  c107_made_partial 5 (by norm_num) false (1, 3, 15) ⟨by norm_num, by norm_num, by norm_num⟩

example : caseGrid.freq 0 = 0 ∧ caseGrid.freq caseGrid.tUpper = 15 :=
  ⟨(c105_increasing case_built.1).2.2.2.1, (c105_increasing case_built.1).2.2.2.2.1⟩

example : caseGrid.freq (caseGrid.tOf 7) = 7 := (c105_inverse case_built.1).2.1 7

example : |caseGrid.tOf 7| ≤ caseGrid.tUpper := (c105_box case_built.1 7).2 (by
  show |(7:ℝ)| ≤ 15
  norm_num [abs_of_pos])

example : caseGrid.freq caseGrid.a0 = 1 ∧ caseGrid.freq caseGrid.a1 = 3 :=
  ⟨(c105_smooth case_built.1).1, (c105_smooth case_built.1).2.1⟩

example : caseGrid.all 1 < caseGrid.all 3 := (c106_points case_built.1 case_built.2).2.2 1 3 (by decide) (by decide)

example : caseGrid.all 3 = -caseGrid.all 1 := c106_symmetric case_built.1 case_built.2 rfl 1 (by decide)

example : ∃ i : Nat, caseGrid.index (1/10^5) 7 = .ok (i : Int) ∧ i + 1 < 5 ∧ 7 ≤ caseGrid.all (i + 1) := by
  obtain ⟨i, h1, h2, h3, -⟩ := c106_lookup case_built.1 case_built.2 (1/10^5) (by norm_num) 7
    (by show (-15:ℝ) ≤ 7; norm_num) (by show (7:ℝ) ≤ 15; norm_num)
  exact ⟨i, h1, h2, h3⟩

example : caseGrid.index (1/10^5) 16 = .ok 3 :=
  (c106_outside case_built.1 case_built.2 (1/10^5) (by norm_num) 16).1 (by show (15:ℝ) < 16; norm_num)

example (p : ℝ × ℝ × ℝ) (hp : guess ⟨1, true⟩ 2 = some p) : 0 < p.1 :=
  (c107_guess_partial ⟨1, true⟩ 2 (by norm_num) (by simp) p hp).1

example : ∃ p, guess ⟨1, false⟩ 2 = some p ∧ 0 < p.1 := by
  obtain ⟨p, h, h'⟩ := c107_selfenergy_partial 2 (by norm_num)
  exact ⟨p, h, (h'.2 (by norm_num)).1⟩

example : (caseGrid.update (2, 5)).p0 = 2 :=
  ((c107_update_partial case_built.1 (2, 5) (by norm_num) (by show (5:ℝ) ≤ 15; norm_num)).2 (by norm_num)).1

end Verif.Hybrid
