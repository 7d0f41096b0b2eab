import Verif.Propagator.Props
import Verif.Propagator.PropsDeriv
import Verif.Propagator.PropsDistr
import Verif.Propagator.PropsMatsubara

/-! Concrete cases that meet the hypotheses of C64, C66, C76, C77 and C91. -/
namespace Verif.Propagator
open Complex

/-- The parameters of the cases. -/
noncomputable def casePar : Par := ⟨1, 0, 1, 1, 0, 1⟩

/-- A self-energy that grows with the scale. -/
noncomputable def caseSE (l : ℝ) : SE := ⟨(l : ℂ) - 1, 0, 0⟩

theorem case_regular : RegularR .hyb (casePar.at 1) (caseSE 1) := by
  intro h; have := congrArg re h; norm_num [g0Rinv, Par.at, casePar, caseSE] at this

theorem case_deriv : HasDerivAt (fun l => (caseSE l).R) (1 : ℂ) 1 := (hasDerivAt_ofReal 1).sub_const _

example : HasDerivAt (fun l => gR .hyb (casePar.at l) (caseSE l))
    (sR .hyb (casePar.at 1) (caseSE 1) + katR .hyb (casePar.at 1) (caseSE 1) ⟨1, 0, 0⟩) 1 :=
  c66_retarded .hyb casePar caseSE ⟨1, 0, 0⟩ 1 case_deriv (by intro h; cases h) case_regular

example : HasDerivAt (fun l => gR .hyb (casePar.at l) (caseSE 1)) (sR .hyb (casePar.at 1) (caseSE 1)) 1 :=
  c66_single_scale .hyb casePar (caseSE 1) 1 case_regular

example : HasDerivAt (fun l => gKgen .hyb (1/2) (casePar.at l) (caseSE l))
    (sKgen .hyb (1/2) (casePar.at 1) (caseSE 1) +
      katK .hyb (gKgen .hyb (1/2) (casePar.at 1) (caseSE 1)) (casePar.at 1) (caseSE 1) ⟨1, 0, 0⟩) 1 :=
  c66_keldysh_general (1/2) casePar caseSE ⟨1, 0, 0⟩ 1 case_deriv (hasDerivAt_const _ _) case_regular

example : gKgen .hyb (1/2) casePar ⟨-I, -I, 0⟩ =
    (1/2 : ℝ) * (gR .hyb casePar ⟨-I, -I, 0⟩ - (starRingEnd ℂ) (gR .hyb casePar ⟨-I, -I, 0⟩)) :=
  (c64_general_reduces (1/2) casePar ⟨-I, -I, 0⟩ (by apply Complex.ext <;> norm_num)).1

example : fermiDistr0 (-2) 1 = 1 := (c76_zero_temperature_partial (-2) 1 (by norm_num)).2.2.1.2 (by norm_num)

example : (gM2 false 1 casePar (-I)).im * 1 < 0 :=
  c91_causal 1 casePar (-I) (by norm_num) (by norm_num [casePar]) (by norm_num [casePar]) (by norm_num [casePar])

example : gM2 false 1 casePar (I * (2:ℝ)) = -I * gM2 true 1 casePar (2:ℝ) :=
  (c91_real_storage 1 casePar 2 rfl).1

example : HasDerivAt (fun l => gM4 false 1 (casePar.at l) ((l : ℂ) - 1))
    (sM4 false 1 (casePar.at 1) ((1 : ℝ) - 1) + gM4 false 1 (casePar.at 1) ((1 : ℝ) - 1) * 1 * gM4 false 1 (casePar.at 1) ((1 : ℝ) - 1)) 1 :=
  (c66_matsubara false 1 casePar (fun l => (l : ℂ) - 1) 1 1 case_deriv).2.2 (by
    intro h
    have := congrArg im h
    norm_num [g0Minv, casePar, sign] at this)

end Verif.Propagator
