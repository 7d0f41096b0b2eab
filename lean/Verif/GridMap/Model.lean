import Mathlib.Analysis.SpecialFunctions.Log.Basic
import Mathlib.Analysis.SpecialFunctions.Pow.Real

/-
Models of the maps between frequencies (or flow parameters) and the auxiliary grid variable.
Double-precision numbers are real numbers.
-/
namespace Verif.GridMap

/-- `sgn`, /repo/source/utilities/math_utils.c++:21-23, and `sign`, math_utils.hpp:23-26. -/
noncomputable def sgn (x : ℝ) : ℝ := (if x ≥ 0 then 1 else 0) - (if x ≤ 0 then 1 else 0)

/-- `grid_transf_v1`, /repo/source/grids/frequency_grid.c++:254-258. -/
noncomputable def v1 (W c w : ℝ) : ℝ := (w - c) / √(W * W + (w - c) * (w - c))

/-- `grid_transf_inv_v1`, frequency_grid.c++:259-262. -/
noncomputable def v1Inv (W c t : ℝ) : ℝ := c + W * t / √(1 - t * t)

/-- `grid_transf_v2`, frequency_grid.c++:269-276 (the assertion on finiteness is vacuous for reals). -/
noncomputable def v2 (W c w : ℝ) : ℝ :=
  sgn (w - c) * √((√((w - c) * (w - c) * ((w - c) * (w - c)) + 4 * ((w - c) * (w - c)) * W * W)
    - (w - c) * (w - c)) / 2) / W

/-- `grid_transf_inv_v2`, frequency_grid.c++:277-280. -/
noncomputable def v2Inv (W c t : ℝ) : ℝ := c + W * t * |t| / √(1 - t * t)

/-- `grid_transf_v3`, frequency_grid.c++:287-292. -/
noncomputable def v3 (W c w : ℝ) : ℝ :=
  if |w - c| < 1 / 10^12 then 0
  else (-W + √(4 * (w - c) * (w - c) + W * W)) / 2 / (w - c)

/-- `grid_transf_inv_v3`, frequency_grid.c++:293-296. -/
noncomputable def v3Inv (W c t : ℝ) : ℝ := c + W * t / (1 - t * t)

/-- `grid_transf_v4`, frequency_grid.c++:302-307. -/
noncomputable def v4 (W c w : ℝ) : ℝ := sgn (w - c) * √(|w - c| / (|w - c| + W))

/-- `grid_transf_inv_v4`, frequency_grid.c++:308-311. -/
noncomputable def v4Inv (W c t : ℝ) : ℝ := c + W * sgn t * (t * t) / (1 - t * t)

/-- `grid_transf_lin`, frequency_grid.c++:320-322. -/
noncomputable def lin (W w : ℝ) : ℝ := w / W

/-- `grid_transf_inv_lin`, frequency_grid.c++:324-326. -/
noncomputable def linInv (W t : ℝ) : ℝ := t * W

/-- `integration_measure_v1`, frequency_grid.c++:263-266. -/
noncomputable def measure1 (W t : ℝ) : ℝ := W / (√(1 - t * t) * √(1 - t * t) * √(1 - t * t))

/-- `integration_measure_v2`, frequency_grid.c++:281-284. -/
noncomputable def measure2 (W t : ℝ) : ℝ :=
  W * sgn t * t * (2 - t * t) / (√(1 - t * t) * √(1 - t * t) * √(1 - t * t))

/-- `integration_measure_v3`, frequency_grid.c++:297-300. -/
noncomputable def measure3 (W t : ℝ) : ℝ := W * (1 + t * t) / (1 - t * t) / (1 - t * t)

/-- `integration_measure_v4`, frequency_grid.c++:312-315. -/
noncomputable def measure4 (W t : ℝ) : ℝ := 2 * W * sgn t * t / (1 - t * t) / (1 - t * t)

/-! Flow parametrisations, /repo/source/grids/flow_grid.hpp. -/

/-- `exp_parametrization::lambda_from_t`. -/
noncomputable def expLam (t : ℝ) : ℝ := Real.exp (t * Real.log 10)
/-- `exp_parametrization::t_from_lambda`. -/
noncomputable def expT (l : ℝ) : ℝ := Real.log l / Real.log 10
/-- `exp_parametrization::dlambda_dt`. -/
noncomputable def expD (t : ℝ) : ℝ := Real.exp (t * Real.log 10) * Real.log 10

/-- `log_parametrization::lambda_from_t` (`S` is `Lambda_scale`). -/
noncomputable def logLam (S t : ℝ) : ℝ := S * ((10 : ℝ) ^ (-t) - 1)
/-- `log_parametrization::t_from_lambda`; `log10 x = log x / log 10`. -/
noncomputable def logT (S l : ℝ) : ℝ := -(Real.log (1 + l / S) / Real.log 10)
/-- `log_parametrization::dlambda_dt`. -/
noncomputable def logD (S t : ℝ) : ℝ := -S * (10 : ℝ) ^ (-t) * Real.log 10

/-- `sqrt_parametrization::lambda_from_t` with `a = 5`. -/
noncomputable def sqrtLam (t : ℝ) : ℝ := 5 * t * t / √(1 - t * t) * sgn t
/-- `sqrt_parametrization::t_from_lambda`. -/
noncomputable def sqrtT (l : ℝ) : ℝ := √((√(l ^ 4 + 4 * (5 * l) ^ 2) - l ^ 2) / 2) / 5 * sgn l
/-- `sqrt_parametrization::dlambda_dt`. -/
noncomputable def sqrtD (t : ℝ) : ℝ := 5 * |t| * (2 - t * t) / (√(1 - t*t) * √(1 - t*t) * √(1 - t*t))

/-- `linear_parametrization`. -/
def linLam (t : ℝ) : ℝ := t
/-- `linear_parametrization::t_from_lambda`. -/
def linT (l : ℝ) : ℝ := l
/-- `linear_parametrization::dlambda_dt`. -/
def linD (_t : ℝ) : ℝ := 1

/-- `sq_substitution`, /repo/source/grids/flow_grid.c++:41-45. -/
noncomputable def sqSubst (x : ℝ) : ℝ := √((√(x ^ 4 + 4 * (5 * x) ^ 2) - x ^ 2) / 2) / 5
/-- `sq_resubstitution`, flow_grid.c++:46-49. -/
noncomputable def sqResubst (x : ℝ) : ℝ := 5 * x ^ 2 / √(1 - x ^ 2)
/-- `log_substitution`, flow_grid.c++:32-35. -/
noncomputable def logSubst (S x : ℝ) : ℝ := Real.log (1 + x / S) / Real.log 10
/-- `log_resubstitution`, flow_grid.c++:36-39. -/
noncomputable def logResubst (S x : ℝ) : ℝ := S * ((10 : ℝ) ^ x - 1)

end Verif.GridMap
