import Verif.MfRG.Props
import Verif.MfRG.PropsMore

/-! Concrete cases that meet the hypotheses of C67. -/
namespace Verif.MfRG

example : ∃ x, rhs exEqs ⟨2, true, 10, 1/1000, 1/10, 1/1000, 1/1000⟩ = .ok x ∧ x.counter = 0 := by
  obtain ⟨x, h, -, -, h'⟩ := c67_low_order exEqs ⟨2, true, 10, 1/1000, 1/10, 1/1000, 1/1000⟩ (by norm_num) (by norm_num)
  exact ⟨x, h, h'⟩

example : rhs exEqs ⟨0, true, 10, 1/1000, 1/10, 1/1000, 1/1000⟩ = .error .assertion :=
  c67_no_loops _ _ (by norm_num)

example : ∃ m, StopsAt exEqs ⟨6, true, 10, 1/1000, 1/10, 1/1000, 1/1000⟩
    (passes exEqs ⟨6, true, 10, 1/1000, 1/10, 1/1000, 1/1000⟩ 1).sigma m := by
  obtain ⟨m, h, -⟩ := c67_result exEqs ⟨6, true, 10, 1/1000, 1/10, 1/1000, 1/1000⟩ (by norm_num) 1
  exact ⟨m, h⟩

/-- The equations with norms that are never a number. -/
def caseNaN : Eqs ℚ ℚ := { exEqs with absV := fun _ => none, relV := fun _ _ => none, absS := fun _ => none, relS := fun _ _ => none }

example : rhs caseNaN ⟨6, true, 10, 1/1000, 1/10, 1/1000, 1/1000⟩ =
    .ok (passes caseNaN ⟨6, true, 10, 1/1000, 1/10, 1/1000, 1/1000⟩ 1) :=
  c67_nan_accepted caseNaN _ (by norm_num) rfl (Or.inl (c67_deviation caseNaN _ (by norm_num) rfl 0).1)

example : (vertexPass caseNaN ⟨6, true, 10, 1/1000, 1/10, 1/1000, 1/1000⟩ 1).1 = sumTo caseNaN 1 6 :=
  c67_nan_loops caseNaN _ 1 (by norm_num) (fun _ => ⟨rfl, rfl⟩)

end Verif.MfRG
