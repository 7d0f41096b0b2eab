import Verif.Outcome
import Verif.GridMap.Model
import Verif.Hybrid.Model
import Mathlib.Analysis.SpecialFunctions.Pow.Real
import Mathlib.Analysis.Real.Pi.Bounds

/-
Model of the angular grid (`GRID == 2`), /repo/source/grids/frequency_grid.c++:569-701 and
/repo/source/grids/frequency_grid.hpp:282-375. Doubles are real numbers.
-/
namespace Verif.Angular

open GridMap (sgn)

/-- Essential parameters and the ends of the auxiliary grid; `m` is `number_of_intervals`, `lam` is `lin_fac`. -/
structure Grid where
  n : Nat
  m : Nat
  lam : ℝ
  power : ℝ
  wUpper : ℝ
  wLower : ℝ
  tUpper : ℝ
  tLower : ℝ
  positive : Bool

/-- `half_of_interval_length_for_t`, `half_of_interval_length_for_w`, `interval_length_for_w_recip`,
frequency_grid.c++:576-579. -/
noncomputable def Grid.ht (g : Grid) : ℝ := (g.tUpper - g.tLower) * (1 / 2) / g.m
noncomputable def Grid.hw (g : Grid) : ℝ := (g.wUpper - g.wLower) * (1 / 2) / g.m
noncomputable def Grid.lwRecip (g : Grid) : ℝ := g.m / (g.wUpper - g.wLower)

/-- `quad_fac_recip`, frequency_grid.c++:580. -/
noncomputable def Grid.q (g : Grid) : ℝ := (1 + g.lam) ^ g.power - g.lam ^ g.power

/-- `spacing_auxiliary_gridpoint`, frequency_grid.c++:575. -/
noncomputable def Grid.spacing (g : Grid) : ℝ := (g.tUpper - g.tLower) / ((g.n : ℝ) - 1)

/-- `frequency_from_t`, frequency_grid.c++:639-647. -/
noncomputable def Grid.freq (g : Grid) (t : ℝ) : ℝ :=
  let i : ℝ := ⌊(t + g.ht) * g.m / (g.tUpper - g.tLower)⌋
  let r := t / g.ht - i * 2
  (i + (1 / 2) / g.q * sgn r * ((|r| + g.lam) ^ g.power - g.lam ^ g.power)) * g.hw * 2

/-- `t_from_frequency`, frequency_grid.c++:649-655; `recip_power` is `1 / power`. -/
noncomputable def Grid.tOf (g : Grid) (w : ℝ) : ℝ :=
  let i : ℝ := ⌊(w + g.hw) * g.lwRecip⌋
  let r := w / g.hw - i * 2
  (i + (1 / 2) * ((|r| * g.q + g.lam ^ g.power) ^ (1 / g.power) - g.lam) * sgn r) * g.ht * 2

/-- `initialize_grid`, frequency_grid.c++:657-665: entry `i` of the auxiliary grid and of the frequencies. -/
noncomputable def Grid.aux (g : Grid) (i : Nat) : ℝ := g.tLower + g.spacing * i
noncomputable def Grid.all (g : Grid) (i : Nat) : ℝ := g.freq (g.tLower + g.spacing * i)

/-- `get_grid_index`, frequency_grid.c++:667-701; `tol` is `inter_tol`. The overload that also returns the auxiliary
coordinate checks the spacing to `1e-15` instead of `1e-10` (`eps`). -/
noncomputable def Grid.index (g : Grid) (eps tol w : ℝ) : Res Int :=
  let t := g.tOf w
  if ¬ |g.spacing - 1| < eps then .error .assertion
  else
    let i := min ((g.n : Int) - 2) (max 0 (Hybrid.trunc ((t - g.tLower) + 1 / 10 ^ 12)))
    if i < 0 then .error .undefined
    else if ¬ g.aux i.toNat ≤ t + tol then .error .assertion
    else if ¬ (g.aux (i + 1).toNat ≥ t - tol ∨ i = (g.n : Int) - 2) then .error .assertion
    else .ok i

/-- Sizes of the grids from the configuration: `nBOS`, `nFER2`, `nBOS3` and the two fermionic dimensions of the third
class. -/
structure Sizes where
  nBOS : Nat
  nFER2 : Nat
  nBOS3 : Nat
  nu3 : Nat
  nup3 : Nat

/-- The grid constructed for a kind, frequency_grid.c++:583-637 and frequency_grid.hpp:331-339. -/
noncomputable def build (n m : Nat) (w : ℝ) (positive : Bool) : Grid where
  n := n
  m := m
  lam := 1 / 10 ^ 4
  power := 2
  wUpper := w
  wLower := if positive then 0 else -w
  tUpper := ((n : ℝ) - 1) * (if positive then 1 else 1 / 2)
  tLower := if positive then 0 else -(((n : ℝ) - 1) * (if positive then 1 else 1 / 2))
  positive := positive

/-- `guess_essential_parameters` with its assertions; other classes leave the members uninitialised. -/
noncomputable def make (k : Hybrid.Kind) (s : Sizes) (positive : Bool) : Res Grid :=
  match k.cls, k.bosonic with
  | 1, _ => .ok (build s.nBOS 1 (2 * Real.pi) positive)
  | 2, true => .error .assertion
  | 2, false => if (s.nFER2 - 1) % 8 = 0 then .ok (build s.nFER2 8 Real.pi positive) else .error .assertion
  | 3, true => .ok (build s.nBOS3 8 Real.pi positive)
  | 3, false =>
    let n := if positive then s.nup3 else s.nu3
    let m := if positive then 4 else 8
    if (n - 1) % m = 0 then .ok (build n m Real.pi positive) else .error .assertion
  | _, _ => .error .undefined

/-- `set_essential_parameters` and `set_w_upper` (which keeps the number of intervals), frequency_grid.hpp:351-355. The
conversion of the number of intervals from double to int is left out. -/
def Grid.set (g : Grid) (wmax : ℝ) (m : Nat) : Grid := { g with wUpper := wmax, wLower := 0, m := m }
def Grid.setUpper (g : Grid) (wmax : ℝ) : Grid := g.set wmax g.m

/-- `update_number_of_intervals` and `update_power`, frequency_grid.hpp:360-372. -/
def Grid.updateIntervals (g : Grid) (m : Nat) : Grid := { g with m := m }
noncomputable def Grid.updatePower (g : Grid) (p : ℝ) : Grid := { g with power := max p 1 }

end Verif.Angular
