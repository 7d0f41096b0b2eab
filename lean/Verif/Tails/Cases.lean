import Verif.Tails.Props
import Verif.Tails.PropsSum

/-! Concrete cases that meet the hypotheses of C98: a level at 1/2 with a half width of 1, transfer frequency 2, box
from -5 to 5. -/
namespace Verif.Tails

/-- Parameters of the case. -/
noncomputable def casePar : Propagator.Par := ⟨1, 1 / 2, 1, 1, 0, 0⟩

example (ch : Bool) : ∃ x, matsubaraTail 2 false ch 2 (-5) 5 (casePar.eps + (0 : ℝ)) casePar.Gam casePar.Lam false = some (.ok x) ∧
    IsTail (bubbleValue false ch false (prop2 false casePar 0) (single2 false casePar 0) 2) (-5) 5 x :=
  c98_matsubara casePar 0 2 (-5) 5 (by norm_num [casePar]) ch (by norm_num [casePar, abs_of_pos])
    (by norm_num [casePar, abs_of_pos])

example (ch diff : Bool) : ∃ x : ℝ, matsubaraTail 2 true ch 2 (-5) 5 0 casePar.Gam casePar.Lam diff = some (.ok x) ∧
    IsTail (bubbleValue true ch diff (prop2 true casePar 0) (single2 true casePar 0) 2) (-5) 5 x :=
  c98_matsubara_phs casePar 0 2 (-5) 5 (by norm_num [casePar]) 0 ch diff (by norm_num) (by norm_num)

example (ch : Bool) : ∃ x, matsubaraTail 2 false ch 2 (-5) 5 (casePar.eps + (0 : ℝ)) casePar.Gam casePar.Lam true = some (.ok x) ∧
    IsTail (bubbleValue false ch true (prop2 false casePar 0) (single2 false casePar 0) 2) (-5) 5 (if ch then -x else x) :=
  c98_matsubara_diff_partial casePar 0 2 (-5) 5 (by norm_num [casePar]) ch (by norm_num) (by norm_num)

example (ch diff : Bool) : ∃ x : ℝ, matsubaraTail 4 true ch 2 (-5) 5 0 casePar.Gam casePar.Lam diff = some (.ok x) ∧
    IsTail (bubbleValue true ch diff (prop4 casePar) (single4 casePar) 2) (-5) 5 x :=
  c98_interaction casePar 2 (-5) 5 (by norm_num [casePar]) 0 ch diff (Or.inr (by norm_num)) (by norm_num) (by norm_num)

/-- A retarded and an advanced propagator. -/
example : IsTail (fun v => propRA 1 casePar 0 (v - 2 / 2) * propRA (-1) casePar 0 (v + 2 / 2)) (-5) 5
    (atKeldysh 2 (-5) 5 (casePar.eps + 0 : ℝ) ((casePar.Gam + casePar.Lam) / 2) 1 (-1) false) :=
  (c98_keldysh casePar 0 2 (-5) 5 1 (-1) (by norm_num [casePar]) (Or.inl rfl) (Or.inr rfl)
    (by norm_num [casePar, abs_of_pos]) (by norm_num [casePar, abs_of_pos])).1

end Verif.Tails
