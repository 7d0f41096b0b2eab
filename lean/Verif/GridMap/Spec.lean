import Mathlib.Order.Monotone.Basic
import Mathlib.Order.Interval.Set.Defs
import Mathlib.Data.Real.Basic

/-! What it means for a pair of maps to be a good change of variables. -/
namespace Verif.GridMap

/-- `toT` and `ofT` are strictly increasing inverse bijections between the real axis and the open interval
`(-1, 1)`. -/
structure ChangeOfVariable (toT ofT : ℝ → ℝ) : Prop where
  range : ∀ w, -1 < toT w ∧ toT w < 1
  back : ∀ w, ofT (toT w) = w
  forth : ∀ t, -1 < t → t < 1 → toT (ofT t) = t
  toT_strictMono : StrictMono toT
  ofT_strictMono : ∀ s t, -1 < s → s < t → t < 1 → ofT s < ofT t

end Verif.GridMap
