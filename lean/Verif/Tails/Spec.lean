import Mathlib.MeasureTheory.Integral.IntervalIntegral.Basic
import Mathlib.Analysis.Complex.Basic

/-
Specification: what the tails of an integral are.
-/
namespace Verif.Tails
open MeasureTheory Filter Topology

/-- `x` is the contribution of the frequencies outside `[vmin, vmax]` to the integral of `f` over the real line,
taken as the limit of symmetric boxes. -/
def IsTail (f : ℝ → ℂ) (vmin vmax : ℝ) (x : ℂ) : Prop :=
  Tendsto (fun R : ℝ => (∫ v in (-R)..vmin, f v) + ∫ v in vmax..R, f v) atTop (𝓝 x)

end Verif.Tails
