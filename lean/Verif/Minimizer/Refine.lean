import Verif.Minimizer.Model

/-
The minimisation proper: `minimizer`, /repo/source/utilities/minimizer.hpp:98-151, and `minimizer_nD`, :170-244.  The algorithms of the GSL are
parameters: a map of brackets (Brent) and a map of simplices that may fail (Nelder and Mead).  The two tests of the GSL are modelled as
documented.  Output is left out.
-/
namespace Verif.Minimizer

/-- Status codes: `GSL_SUCCESS`, `GSL_CONTINUE`, any error. -/
inductive Status
  | success
  | goOn
  | error
  deriving DecidableEq

/-- `gsl_min_test_interval`, called in minimizer.hpp:129: the width against the tolerance. -/
noncomputable def testInterval (a b epsabs epsrel : ℝ) : Status :=
  if epsrel < 0 ∨ epsabs < 0 ∨ b < a then .error
  else
    let least := if (0 < a ∧ 0 < b) ∨ (a < 0 ∧ b < 0) then min |a| |b| else 0
    if |b - a| < epsabs + epsrel * least then .success else .goOn

/-- The loop, minimizer.hpp:120-148, with `k + 1` passes left: bracket, number of passes, last status.  The status of the iteration itself is
overwritten. -/
noncomputable def refineLoop (it : Tri → Tri) (epsabs epsrel : ℝ) : ℕ → Tri → Tri × ℕ × Status
  | 0, t => (it t, 1, testInterval (it t).a (it t).b epsabs epsrel)
  | k + 1, t =>
    let u := it t
    if testInterval u.a u.b epsabs epsrel = .goOn then
      let r := refineLoop it epsabs epsrel k u
      (r.1, r.2.1 + 1, r.2.2)
    else (u, 1, testInterval u.a u.b epsabs epsrel)

/-- A `do … while (… && iter < max_iter)` loop: at least one pass. -/
noncomputable def refine (it : Tri → Tri) (epsabs epsrel : ℝ) (maxIter : ℕ) (t : Tri) : Tri × ℕ × Status :=
  refineLoop it epsabs epsrel (maxIter - 1) t

/-- `gsl_multimin_test_size`, called in minimizer.hpp:214. -/
noncomputable def testSize (size epsabs : ℝ) : Status := if epsabs < 0 then .error else if size < epsabs then .success else .goOn

/-- The loop of `minimizer_nD`, minimizer.hpp:205-236, with `k + 1` passes left: simplex, number of passes, last status.  `it` returns the simplex and
whether the iteration failed. -/
noncomputable def simplexLoop {S : Type} (it : S → S × Bool) (size : S → ℝ) (epsabs : ℝ) : ℕ → S → S × ℕ × Status
  | 0, s => if (it s).2 then ((it s).1, 1, .error) else ((it s).1, 1, testSize (size (it s).1) epsabs)
  | k + 1, s =>
    let u := it s
    if u.2 then (u.1, 1, .error)
    else if testSize (size u.1) epsabs = .goOn then
      let r := simplexLoop it size epsabs k u.1
      (r.1, r.2.1 + 1, r.2.2)
    else (u.1, 1, testSize (size u.1) epsabs)

/-- `minimizer_nD`, minimizer.hpp:170-244.  The relative tolerance is a parameter of the function that is not used. -/
noncomputable def simplexMin {S : Type} (it : S → S × Bool) (size : S → ℝ) (epsabs _epsrel : ℝ) (maxIter : ℕ) (s : S) : S × ℕ × Status :=
  simplexLoop it size epsabs (maxIter - 1) s

/-- The tolerances of `optimize_grid`, data_buffer.hpp:568-569: absolute, relative. -/
noncomputable def gridTolerances : ℝ × ℝ := (0, 0.01)

/-- The one-dimensional search of `optimize_grid` for the scale of a grid, data_buffer.hpp:585-590: bracketing, then at most 20 passes.  The result
is what `update_Wscale` gets; `none`: still bracketing after `fuel` passes, `some none`: exception. -/
noncomputable def bestScale (cost : ℝ → Option ℝ) (it : Tri → Tri) (fuel : ℕ) (s : ℝ) : Option (Option ℝ) :=
  match mloop cost fuel (start s) with
  | none => none
  | some (.handover t) => some (some (refine it gridTolerances.1 gridTolerances.2 20 t).1.m)
  | some (.giveUp t) => some (some t.m)
  | some (.next _) => none
  | some .throws => some none

end Verif.Minimizer
