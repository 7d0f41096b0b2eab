import Verif.Heredity.PropsLines
import Mathlib.MeasureTheory.Integral.IntervalIntegral.Basic

/-
The sum rule of the spectral function, as the code checks it after each step of the flow (sanity_check.hpp:14): postprocessing.hpp
lines 105-123 and postprocessing.c++ lines 92-103.

The numerical quadrature (`integrator`, with the splitting of the range at `± Delta`) is replaced by the exact integral over the same
range; the quadratures are modelled in Quad, Simpson. The self-energy is a function of frequency instead of an interpolated table.
-/
namespace Verif.Spectrum
open Verif.Propagator

/-- `Integrand_sum_rule_spectrum::operator()`, postprocessing.hpp:111-114: the imaginary part of the retarded propagator (type 'g',
component 0) over `-π`. -/
noncomputable def integrand (r : Reg) (p : Par) (σ : ℝ → SE) (w : ℝ) : ℝ :=
  (gR r { p with v := w } (σ w)).im / (-Real.pi)

/-- `sum_rule_spectrum`, postprocessing.c++:92-103: the integral from `-wmax` to `wmax`, `wmax` the upper end of the frequency grid of
the self-energy. -/
noncomputable def sumRule (r : Reg) (p : Par) (σ : ℝ → SE) (wmax : ℝ) : ℝ :=
  ∫ w in (-wmax)..wmax, integrand r p σ w

/-- `Delta`, postprocessing.c++:95: the hybridisation. -/
noncomputable def half (p : Par) : ℝ := (p.Gam + p.Lam) / 2

end Verif.Spectrum
