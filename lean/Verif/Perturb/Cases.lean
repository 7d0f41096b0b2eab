import Verif.Perturb.Props

/-! Concrete cases that meet the hypotheses of C101 and C102: the bubble on integers `toy`. -/
namespace Verif.Perturb

example : (sopt toy true (bareState toy)).vertex = upTo toy 2 ∧ (sopt toy false (bareState toy)).vertex = upTo toy 2 :=
  ⟨(c101_second_order_partial toy toy_exact true _ rfl).1, (c101_second_order_partial toy toy_exact false _ rfl).1⟩

end Verif.Perturb
