import Verif.Propagator.Model
import Verif.Quad.ModelT0
import Verif.MatSum.Model
import Mathlib.MeasureTheory.Integral.IntervalIntegral.Basic
import Mathlib.Analysis.SpecialFunctions.Trigonometric.Arctan

/-
Model of the occupation computed from a self-energy, /repo/source/perturbation_theory_and_parquet/hartree_term.c++:5-23,
100-141, 182-194, and hartree_term.hpp:20-29.  Doubles are real numbers.  The integrator is applied to the same
intervals and tails as in the code (`Quad.integrateT0`), but the integral over each piece is exact; the error of the
adaptive rule on a piece is the subject of C84 and C85.  The self-energy is the one the loops of `Hartree_Solver` use: a
constant (`initialize(U * filling, 0)`).  The regulator is the hybridisation (`REG == 2`).
-/
namespace Verif.Filling

open Propagator MeasureTheory

/-- `fermi_distribution`, hartree_term.c++:182-185 (finite temperature). -/
noncomputable def fermi (T nu : ℝ) : ℝ := 1 / (Real.exp (nu / T) + 1)

/-- `fermi_distribution`, hartree_term.c++:186-190 (`ZERO_T`). -/
noncomputable def fermi0 (nu : ℝ) : ℝ := if nu > 0 then 0 else if nu = 0 then 1 / 2 else 1

/-- `Delta`, hartree_term.hpp:22. -/
noncomputable def width (p : Par) : ℝ := (p.Gam + p.Lam) / 2

/-- The constant self-energy `initialize(h, 0)`. -/
noncomputable def constSE (h : ℝ) : SE := ⟨h, 0, h⟩

/-- The parameters at another frequency. -/
def atFreq (p : Par) (nu : ℝ) : Par := { p with v := nu }

/-- Which function is integrated in the Keldysh formalism: `prop_type`, or one of the names of
`test_Keldysh_component`. -/
inductive Closing
  | prop (typ : Char)
  | test (name : String)

/-- `operator()` in the Keldysh formalism, hartree_term.c++:104-129; `n` is the value of the distribution, `G`, `S`,
`SK` the components of the propagators. -/
noncomputable def integrandK (c : Closing) (n : ℝ) (G S SK : ℂ) : Res ℝ :=
  let val := -1 / Real.pi * n
  match c with
  | .test name =>
    if name = "A_real" then .ok ((starRingEnd ℂ) S).re
    else if name = "A_imag" then .ok ((starRingEnd ℂ) S).im
    else if name = "R_real" then .ok S.re
    else if name = "R_imag" then .ok S.im
    else if name = "K_real" then .ok SK.re
    else if name = "K_imag" then .ok SK.im
    else if name = "lesser" then .ok (-4 * n * S.im)
    else .error .assertion
  | .prop typ =>
    if typ = 'g' then .ok (val * G.im)
    else if typ = 's' then .ok (val * S.im)
    else .error .assertion

/-- `operator()` in the Matsubara formalism, hartree_term.c++:130-140; `scale` is `M_PI*T`, or 1 at zero temperature. -/
noncomputable def integrandM (typ : Char) (scale nu : ℝ) (G S : ℂ) : Res ℝ :=
  if typ = 'g' then .ok (G - 1 / (Complex.I * nu * scale)).re
  else if typ = 's' then .ok S.re
  else .error .assertion

/-- The propagators in the integrand for the constant self-energy `h`; `F` is the distribution factor of the Keldysh
component (propagator.hpp:336-361 in equilibrium). -/
noncomputable def keldyshAt (c : Closing) (nF F : ℝ → ℝ) (p : Par) (h nu : ℝ) : Res ℝ :=
  integrandK c (nF nu) (gR .hyb (atFreq p nu) (constSE h)) (sR .hyb (atFreq p nu) (constSE h))
    (sKeq .hyb (F nu) (atFreq p nu) (constSE h))

/-- The same in the Matsubara formalism without particle-hole symmetry. -/
noncomputable def matsubaraAt (typ : Char) (scale : ℝ) (p : Par) (h nu : ℝ) : Res ℝ :=
  integrandM typ scale nu (gM2 false scale (atFreq p nu) h) (sM2 false scale (atFreq p nu) h)

/-- The integral over an interval, below and above a point. -/
noncomputable def cell (f : ℝ → ℝ) (a b : ℝ) : ℝ := ∫ x in a..b, f x
noncomputable def below (f : ℝ → ℝ) (a : ℝ) : ℝ := ∫ x in Set.Iic a, f x
noncomputable def above (f : ℝ → ℝ) (a : ℝ) : ℝ := ∫ x in Set.Ioi a, f x

/-- `integrator_Matsubara_T0(*this, v_lower, v_upper, wHalf, {0}, 0, true)`, hartree_term.c++:7 and 10 with
`v_lower = 10 Delta`, `v_upper = -10 Delta` (hartree_term.hpp:26-27). -/
noncomputable def integrateAll (f : ℝ → ℝ) (D wHalf : ℝ) : Res ℝ :=
  Quad.integrateT0 (cell f) (below f) (above f) (10 * D) (-10 * D) wHalf [0] true

/-- `compute_filling_oneshot` in the Keldysh formalism, hartree_term.c++:6-8, for an integrand that is defined at all
frequencies. -/
noncomputable def oneshotK (f : ℝ → ℝ) (D : ℝ) : Res ℝ := integrateAll f D 10

/-- The additional term of the Matsubara formalism, hartree_term.c++:11 and 18. -/
noncomputable def offset (typ : Char) : ℝ := if typ = 'g' then 0.5 else 0

/-- `compute_filling_oneshot` in the Matsubara formalism at zero temperature, hartree_term.c++:9-12. -/
noncomputable def oneshotM0 (typ : Char) (f : ℝ → ℝ) (D : ℝ) : Res ℝ := do
  let r ← integrateAll f D 0
  return r / (2 * Real.pi) + offset typ

/-- `compute_filling_oneshot` in the Matsubara formalism at finite temperature, hartree_term.c++:13-21; `N` is
`POSINTRANGE*10`, the frequency sum is `Nmin = -N .. Nmax = N`, and the tails are added by
`asymp_corrections_bubble_via_quadrature` (/repo/source/asymptotic_corrections/correction_functions.hpp:21-23) from
`integrator_onlyTails` (/repo/source/integrator/integrator.hpp:408-415). -/
noncomputable def oneshotM (typ : Char) (f : ℝ → ℝ) (T : ℝ) (N : Nat) : Res ℝ := do
  let s ← MatSum.matsubaraSum (fun n : Int => f n) (-(N : Int)) N
  return s * T + offset typ + (below f (2 * (-(N : ℝ)) + 1) + above f (2 * (N : ℝ) + 1)) * T

/-- `compute_Hartree_term_oneshot`, hartree_term.c++:100-102. -/
noncomputable def hartreeOneshot (U : ℝ) (filling : Res ℝ) : Res ℝ := do
  let n ← filling
  return U * n

/-- Whether `friedel_sum_rule_check` stops the program, hartree_term.c++:143-155.  The quotient with an occupation 0 is
infinite, or NaN if the difference vanishes. -/
noncomputable def friedelCheck (zeroT : Bool) (U eps D n : ℝ) : Res Unit :=
  let nF := 1 / 2 - 1 / Real.pi * Real.arctan ((eps + U * n) / D)
  let rel := |(n - nF) / n|
  if zeroT ∧ n ≠ 0 ∧ rel > 1 / 1000 then .error .assertion
  else if zeroT ∧ n = 0 ∧ n - nF ≠ 0 then .error .assertion
  else .ok ()

end Verif.Filling
