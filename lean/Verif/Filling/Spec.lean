import Mathlib.MeasureTheory.Integral.Bochner.Basic
import Mathlib.MeasureTheory.Measure.Lebesgue.Basic
import Mathlib.Analysis.Real.Pi.Bounds

/-
What the occupation of a broadened level is, independently of the code.
-/
namespace Verif.Filling

open Real MeasureTheory

/-- The density of states of a level at zero with half width `D`: the Lorentzian with integral one. -/
noncomputable def lor (D x : ℝ) : ℝ := 1 / π * (D / (x ^ 2 + D ^ 2))

/-- The occupation of a level at `e` with half width `D` if a state at energy `x` is occupied with probability `nF x`. -/
noncomputable def occ (nF : ℝ → ℝ) (D e : ℝ) : ℝ := ∫ x, nF x * lor D (x - e)

/-- The positive fermionic frequencies at temperature `T`. -/
noncomputable def pole (T : ℝ) (n : ℕ) : ℝ := (2 * (n:ℝ) + 1) * π * T

end Verif.Filling
