import Verif.Propagator.Model
import Mathlib.Analysis.Calculus.Deriv.Inv
import Mathlib.Analysis.Calculus.Deriv.Star
import Mathlib.Analysis.Complex.RealDeriv
import Mathlib.Analysis.SpecialFunctions.Trigonometric.DerivHyp
import Mathlib.Tactic.FieldSimp
import Mathlib.Tactic.LinearCombination

namespace Verif.Propagator
open Complex

/-- Dyson form of the retarded components: one over the regulated inverse. -/
theorem gR2_eq (p : Par) (s : SE) :
    gR2 p s = 1 / (((p.v - p.eps : ℝ) : ℂ) + I * ((p.Gam + p.Lam) / 2 : ℝ) - s.R) := by
  unfold gR2 g0Rinv; congr 1; push_cast; ring

theorem sub_conj' (z : ℂ) : z - (starRingEnd ℂ) z = I * (2 * z.im : ℝ) := by
  rw [Complex.sub_conj]; push_cast; ring

theorem hasDerivAt_ofReal (x : ℝ) : HasDerivAt (fun L : ℝ => (L : ℂ)) 1 x := by
  simpa using (hasDerivAt_id x).ofReal_comp

theorem hasDerivAt_conj {f : ℝ → ℂ} {f' : ℂ} {x : ℝ} (h : HasDerivAt f f' x) :
    HasDerivAt (fun L => (starRingEnd ℂ) (f L)) ((starRingEnd ℂ) f') x := by
  simpa using h.star

theorem hasDerivAt_normSq {f : ℝ → ℂ} {f' : ℂ} {x : ℝ} (h : HasDerivAt f f' x) :
    HasDerivAt (fun L => ((normSq (f L) : ℝ) : ℂ))
      (f' * (starRingEnd ℂ) (f x) + f x * (starRingEnd ℂ) f') x := by
  have := h.mul (hasDerivAt_conj h)
  refine this.congr_of_eventuallyEq (Filter.Eventually.of_forall fun L => ?_)
  exact (mul_conj (f L)).symm

theorem hasDerivAt_im {f : ℝ → ℂ} {f' : ℂ} {x : ℝ} (h : HasDerivAt f f' x) :
    HasDerivAt (fun L => (f L).im) f'.im x := by
  exact imCLM.hasFDerivAt.comp_hasDerivAt x h

/-- Derivative of `a L / (b L)` in the form used below. -/
theorem hasDerivAt_one_div {D : ℝ → ℂ} {D' : ℂ} {x : ℝ} (h : HasDerivAt D D' x) (h0 : D x ≠ 0) :
    HasDerivAt (fun L => 1 / D L) (-(1 / D x) * D' * (1 / D x)) x := by
  have := h.inv h0
  simp only [one_div]
  refine this.congr_deriv ?_
  field_simp

theorem hasDerivAt_tanh (x : ℝ) : HasDerivAt Real.tanh (1 / (Real.cosh x) ^ 2) x := by
  have h := (Real.hasDerivAt_sinh x).div (Real.hasDerivAt_cosh x) (Real.cosh_pos x).ne'
  have e : Real.tanh = fun y => Real.sinh y / Real.cosh y := by
    funext y; exact Real.tanh_eq_sinh_div_cosh y
  rw [e]
  refine h.congr_deriv ?_
  congr 1
  have := Real.cosh_sq x
  nlinarith

end Verif.Propagator
