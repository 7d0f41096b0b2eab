import Verif.Outcome
import Mathlib.Algebra.Module.Basic
import Mathlib.Data.Real.Basic

/-
Model of `anderson_update`, /repo/source/utilities/anderson_acceleration.hpp:57-125.  States are elements of a
real vector space (their arithmetic is the subject of C49).  The least-squares solution `gamma` is an
argument: the theorems hold for every value of it, or for those that solve the normal equations.
-/
namespace Verif.Anderson

/-- The mixing coefficients, anderson_acceleration.hpp:67-106, for a history of length `m ≥ 1`. -/
noncomputable def alpha (m : ℕ) (gamma : ℕ → ℝ) (i : ℕ) : ℝ :=
  if m = 1 then 1
  else if i = m - 1 then gamma (m - 2)
  else if i = 0 then 1 - gamma 0
  else gamma (i - 1) - gamma i

/-- Contribution of the `i`-th history entry, anderson_acceleration.hpp:118, 122. -/
noncomputable def term {V : Type} [AddCommGroup V] [Module ℝ V] (zeta : ℝ) (a : ℝ) (p : V × V) : V :=
  a • (zeta • p.1 + (1 - zeta) • p.2)

/-- Adding up the contributions from the `i`-th entry on, anderson_acceleration.hpp:119-123. -/
noncomputable def accumulate {V : Type} [AddCommGroup V] [Module ℝ V] (zeta : ℝ) (al : ℕ → ℝ) :
    ℕ → List (V × V) → V → V
  | _, [], acc => acc
  | i, p :: ps, acc => accumulate zeta al (i + 1) ps (acc + term zeta (al i) p)

/-- `anderson_update`: the history is a list of pairs (evaluation of the right-hand side, iterate). -/
noncomputable def update {V : Type} [AddCommGroup V] [Module ℝ V] (hist : List (V × V)) (zeta : ℝ)
    (gamma : ℕ → ℝ) : Res V :=
  match hist with
  | [] => .error .exception                                    -- invalid_argument, line 72
  | p :: ps =>
    let al := alpha hist.length gamma
    .ok (accumulate zeta al 1 ps (term zeta (al 0) p))

end Verif.Anderson
