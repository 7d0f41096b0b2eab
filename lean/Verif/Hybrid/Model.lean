import Verif.Outcome
import Verif.GridMap.Model

/-
Model of the hybrid frequency grid (`GRID == 1`), /repo/source/grids/frequency_grid.c++:363-565 and
/repo/source/grids/frequency_grid.hpp:195-280, with `HYBRID_GRID_OPTION == 0` (frequency_grid.hpp:54). Doubles are real
numbers.
-/
namespace Verif.Hybrid

open GridMap (sgn)

/-- Essential parameters and the ends of the auxiliary grid. -/
structure Grid where
  n : Nat
  p0 : ℝ
  p1 : ℝ
  wUpper : ℝ
  wLower : ℝ
  tUpper : ℝ
  tLower : ℝ
  positive : Bool

/-- `temp` and `temp_quad` of `derive_auxiliary_parameters`, frequency_grid.c++:370-371. -/
noncomputable def Grid.temp (g : Grid) : ℝ := g.p0 + 2 * g.p1
noncomputable def Grid.quad (g : Grid) : ℝ := g.temp * g.wUpper - g.p1 * g.p1

/-- `aux_pos_section_boundaries`, frequency_grid.c++:372-373. -/
noncomputable def Grid.a0 (g : Grid) : ℝ := (2 * g.tUpper * g.p0 * g.wUpper) / g.quad
noncomputable def Grid.a1 (g : Grid) : ℝ := (g.tUpper * (g.p0 + g.p1) * g.wUpper) / g.quad

/-- `recip_curvature_quad`, frequency_grid.c++:374. -/
noncomputable def Grid.curv (g : Grid) : ℝ := (4 * g.tUpper * g.tUpper * g.p0 * g.wUpper * g.wUpper) / (g.quad * g.quad)

/-- `recip_slope_lin`, frequency_grid.c++:375. -/
noncomputable def Grid.slope (g : Grid) : ℝ := g.tUpper * g.wUpper / g.quad

/-- `factor_rat`, `rescale_rat`, frequency_grid.c++:376-377. -/
noncomputable def Grid.fac (g : Grid) : ℝ := g.p1 * g.p1 / g.temp
noncomputable def Grid.rescale (g : Grid) : ℝ := (g.tUpper * g.wUpper * g.temp) / g.quad

/-- `spacing_auxiliary_gridpoint`, frequency_grid.c++:387. -/
noncomputable def Grid.spacing (g : Grid) : ℝ := (g.tUpper - g.tLower) / ((g.n : ℝ) - 1)

/-- `frequency_from_t`, frequency_grid.c++:458-486 (the assertions on finiteness are left out; a division by zero gives
zero here). -/
noncomputable def Grid.freq (g : Grid) (t : ℝ) : ℝ :=
  if |t| < g.a0 then |t| * |t| / g.curv * sgn t
  else if |t| < g.a1 then (g.p0 + (|t| - g.a0) / g.slope) * sgn t
  else g.fac / (1 - |t| / g.rescale) * sgn t

/-- `t_from_frequency`, frequency_grid.c++:488-515. -/
noncomputable def Grid.tOf (g : Grid) (w : ℝ) : ℝ :=
  if |w| < g.p0 then √(|w| * g.curv) * sgn w
  else if |w| < g.p1 then ((|w| - g.p0) * g.slope + g.a0) * sgn w
  else (1 - g.fac / |w|) * g.rescale * sgn w

/-- `initialize_grid`, frequency_grid.c++:517-534: entry `i` of the auxiliary grid. -/
noncomputable def Grid.aux (g : Grid) (i : Nat) : ℝ :=
  if g.n % 2 = 1 ∧ !g.positive ∧ i = g.n / 2 then 0
  else if g.positive ∧ i = 0 then 0
  else g.tLower + g.spacing * i

/-- `initialize_grid`: entry `i` of the frequencies. -/
noncomputable def Grid.all (g : Grid) (i : Nat) : ℝ :=
  if g.n % 2 = 1 ∧ !g.positive ∧ i = g.n / 2 then 0
  else if g.positive ∧ i = 0 then 0
  else g.freq (g.tLower + g.spacing * i)

/-- Conversion of a double to `int`: towards zero. -/
noncomputable def trunc (x : ℝ) : Int := if 0 ≤ x then ⌊x⌋ else ⌈x⌉

/-- The raw index, frequency_grid.c++:543-545: truncated and clamped. -/
noncomputable def Grid.rawIndex (g : Grid) (t : ℝ) : Int :=
  min ((g.n : Int) - 2) (max 0 (trunc ((t - g.tLower) + 1 / 10 ^ 12)))

/-- `get_grid_index`, frequency_grid.c++:536-565, with its assertions; `tol` is `inter_tol`. -/
noncomputable def Grid.index (g : Grid) (tol w : ℝ) : Res Int :=
  let t := g.tOf w
  if ¬ |g.spacing - 1| < 1 / 10 ^ 10 then .error .assertion
  else
    let i := g.rawIndex t
    if i < 0 then .error .undefined
    else if ¬ g.aux i.toNat ≤ t + tol then .error .assertion
    else if ¬ (g.aux (i + 1).toNat ≥ t - tol ∨ i = (g.n : Int) - 2) then .error .assertion
    else .ok i

/-- Which grid: class 1 to 3, bosonic or fermionic. -/
structure Kind where
  cls : Nat
  bosonic : Bool

/-- The section boundaries and the largest frequency of `guess_essential_parameters`, frequency_grid.c++:390-440. -/
noncomputable def guess (k : Kind) (Δ : ℝ) : Option (ℝ × ℝ × ℝ) :=
  match k.cls, k.bosonic with
  | 1, true => some (20 * Δ, 30 * Δ, 5000 * 15 * Δ)
  | 1, false => some (25, 27 * Δ, 40 * 15 * Δ)
  | 2, true => some (6 * Δ, 20 * Δ, 80 * 15 * Δ)
  | 2, false => some (3 * Δ, 10 * Δ, 40 * 15 * Δ)
  | 3, true => some (Δ, 3 * Δ, 30 * 15 * Δ)
  | 3, false => some (Δ, 3 * Δ, 15 * 15 * Δ)
  | _, _ => none

/-- The grid constructed from given boundaries, frequency_grid.c++:442-454. -/
noncomputable def make (n : Nat) (positive : Bool) (p : ℝ × ℝ × ℝ) : Grid where
  n := n
  p0 := p.1
  p1 := p.2.1
  wUpper := p.2.2
  wLower := if positive then 0 else -p.2.2
  tUpper := ((n : ℝ) - 1) * (if positive then 1 else 1 / 2)
  tLower := if positive then 0 else -((n : ℝ) - 1) * (1 / 2)
  positive := positive

/-- `set_essential_parameters`, frequency_grid.hpp:257-261. -/
def Grid.set (g : Grid) (wmax : ℝ) (b : ℝ × ℝ) : Grid := { g with wUpper := wmax, wLower := -wmax, p0 := b.1, p1 := b.2 }

/-- `update_pos_section_boundaries`, frequency_grid.hpp:266-271. -/
noncomputable def Grid.update (g : Grid) (b : ℝ × ℝ) : Grid :=
  { g with p0 := min g.wUpper b.1, p1 := max (min g.wUpper b.1) b.2 }

end Verif.Hybrid
