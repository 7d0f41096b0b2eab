import Verif.Freqs.Props

/-! Concrete cases that meet the hypotheses of C27, C30 and C75. -/
namespace Verif.Freqs

example : divFloor (-7) 2 = .ok ⌊((-7 : Int) : ℚ) / (2 : Int)⌋ := ((c27_integer_division (-7) 2).1 (by norm_num)).1

example : ∃ f c, floor2b (-6 / 2) = .ok f ∧ ceil2b (-6 / 2) = .ok c ∧ f + c = -6 ∧ signFlip ((-6 : Int) : ℚ) = .ok (f - c) :=
  c27_halves (-6) (by decide)

example : round2b ((4 : Int) : ℚ) = 4 ∧ round2f ((5 : Int) : ℚ) = 5 :=
  ⟨(c27_round_fixed 4).1 (by decide), (c27_round_fixed 5).2 (by decide)⟩

/-- From the channel p to the channel a on the integer frequencies of the Matsubara formalism. -/
example : Parity (.ch .a) (transfM .a (.ch .p) ⟨6, 3, -5⟩) :=
  c30_parity .a (.ch .p) ⟨6, 3, -5⟩ ⟨by decide, by decide, by decide⟩

example : ∃ f', IsHalfFloor (transfM .a (.ch .p) ⟨6, 3, -5⟩).w f' ∧
    legsM (.ch .a) (transfM .a (.ch .p) ⟨6, 3, -5⟩) f' = legsM (.ch .p) ⟨6, 3, -5⟩ 2 := by
  have h : IsHalfFloor (transfM .a (.ch .p) ⟨6, 3, -5⟩).w 0 := ⟨by decide, by decide, by decide⟩
  exact ⟨0, h, (c30_legs_partial .a (.ch .p) (by decide) ⟨6, 3, -5⟩ ⟨by decide, by decide, by decide⟩
    ⟨by decide, by decide, by decide⟩ h).1⟩

example : k3Natural (k3Internal ⟨3, 0, 4⟩) = ⟨3, 0, 4⟩ :=
  c75_spherical_partial ⟨3, 0, 4⟩ (by
    simp only [k3Internal]
    rw [show (3 : ℝ) * 3 * (1/4) + 0 * 0 + 4 * 4 = (73/4) by norm_num]
    exact le_trans (by norm_num) (Real.le_sqrt_of_sq_le (show (1:ℝ)^2 ≤ 73/4 by norm_num)))

end Verif.Freqs
