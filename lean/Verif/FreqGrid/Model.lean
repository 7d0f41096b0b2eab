import Verif.Outcome
import Mathlib.Data.Real.Basic
import Mathlib.Algebra.Order.Floor.Ring
import Mathlib.Data.Real.Archimedean

/-
Model of the frequency grid `FrequencyGrid<eliasGrid>`,
/repo/source/grids/frequency_grid.{hpp,c++}, and of the in-box test of `bufferFrequencyGrid`.
Double-precision numbers are real numbers; the pair of grid maps `t_from_frequency`, `frequency_from_t`
(c++:193-225) is a parameter.
-/
namespace Verif.FreqGrid

/-- Essential parameters (hpp:80-84); the map `w_center` enters through `toT`, `ofT`. -/
structure Grid where
  toT : ℝ → ℝ
  ofT : ℝ → ℝ
  n : Nat
  lower : ℝ
  upper : ℝ
  purelyPositive : Bool

/-- `spacing_auxiliary_gridpoint`, `derive_auxiliary_parameters`, c++:30-34. -/
noncomputable def Grid.spacing (g : Grid) : ℝ := (g.toT g.upper - g.toT g.lower) / ((g.n : ℝ) - 1)

/-- `auxiliary_grid[i]`, `initialize_grid`, c++:10-26. -/
noncomputable def Grid.aux (g : Grid) (i : Nat) : ℝ :=
  if g.purelyPositive = true ∧ i = 0 then 0 else g.toT g.lower + (i : ℝ) * g.spacing

/-- `all_frequencies[i]`, c++:10-26. -/
noncomputable def Grid.freq (g : Grid) (i : Nat) : ℝ :=
  if g.purelyPositive = true ∧ i = 0 then 0 else g.ofT (g.toT g.lower + (i : ℝ) * g.spacing)

/-- Access to `all_frequencies[i]` (a vector of `number_of_gridpoints` entries, no bounds check). -/
noncomputable def Grid.read (g : Grid) (i : Int) : Res ℝ :=
  if 0 ≤ i ∧ i < g.n then .ok (g.freq i.toNat) else .error .undefined

/-- Conversion `(int) x`: truncation towards zero. -/
noncomputable def trunc (x : ℝ) : Int := if 0 ≤ x then ⌊x⌋ else ⌈x⌉

/-- Clamping `std::max(0, ·)`, `std::min(number_of_gridpoints - 2, ·)`, c++:127-128. -/
def Grid.clamp (g : Grid) (i : Int) : Int := min ((g.n : Int) - 2) (max 0 i)

/-- `get_grid_index(w_in)` with `PARAMETRIZED_GRID` and `INTERPOLATION != linear` (the defaults),
c++:119-135. -/
noncomputable def Grid.index (g : Grid) (w : ℝ) : Res Int := do
  let i := trunc ((g.toT w - g.toT g.lower) / g.spacing)
  let x ← g.read (i + 1)
  return g.clamp (if x < w then i + 1 else i)

/-- `get_grid_index(t, w_in)`, c++:153-173, for the same defaults: the read precedes the bounds test in
the condition of line 165; the two assertions follow. -/
noncomputable def Grid.index2 (g : Grid) (w : ℝ) : Res (ℝ × Int) := do
  let t := g.toT w
  let i := trunc ((t - g.toT g.lower) / g.spacing)
  let x ← g.read (i + 1)
  let i := if x < w ∧ i < (g.n : Int) - 1 then i + 1 else i
  let y ← g.read i
  let i := if y > w ∧ i > 0 then i - 1 else i
  let i := g.clamp i
  let lo ← g.read i
  if ¬ (lo - w ≤ 1 / 10^5 * |w| ∨ i = 0) then throw .assertion
  let hi ← g.read (i + 1)
  if ¬ (w - hi < 1 / 10^5 ∨ i = (g.n : Int) - 2) then throw .assertion
  return (t, i)

/-- `get_grid_index` for `INTERPOLATION == linear` (first branch, c++:126-129): no array access. -/
noncomputable def Grid.indexLinear (g : Grid) (w : ℝ) : Int :=
  g.clamp (trunc ((g.toT w - g.toT g.lower) / g.spacing))

/-- One-frequency `is_in_box`, frequency_grid.hpp:431-434; `upper` is `w_upper`, `center` is `w_center`,
`tol` is `inter_tol`. -/
def inBox (upper center tol w : ℝ) : Prop := |w - center| < upper + tol

/-- `set_w_center`, frequency_grid.hpp:173-179: new upper and lower limits. -/
noncomputable def setCenter (upper lower center : ℝ) : ℝ × ℝ :=
  ((upper - lower) * (1/2) + center, -((upper - lower) * (1/2)) + center)

/-- The loop of `locate`, /repo/source/utilities/math_utils.hpp:873-892, on the limits `jl`, `ju`
(non-negative integers in every call); also counts the iterations. -/
def locate {K : Type} [LinearOrder K] (xx : Nat → K) (x : K) (jl ju : Nat) : Nat × Nat :=
  if ju - jl > 1 then
    let jm := (ju + jl) / 2
    let r := if xx jm ≤ x then locate xx x jm ju else locate xx x jl jm
    (r.1, r.2 + 1)
  else (jl, 0)
termination_by ju - jl

end Verif.FreqGrid
