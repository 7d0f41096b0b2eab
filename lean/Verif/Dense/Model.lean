import Verif.Outcome
import Verif.Freqs.Model

/-
Model of the frequency grids for imaginary frequencies at finite temperature (`DENSEGRID`),
/repo/source/grids/frequency_grid.{hpp,c++} and /repo/source/parameters/frequency_parameters.hpp, of the look-up of
data on them, /repo/source/correlation_functions/n_point/data_buffer.hpp:84-170, and of the two checks of a list of
frequencies, /repo/source/utilities/math_utils.c++:128-142. Frequencies are in units of `π T`; doubles are rational
numbers.
-/
namespace Verif.Dense
open Verif.Freqs (truncQ signFlip)

/-- Number of frequencies of a class (1: bosonic of `K1` and fermionic of the self-energy, 2: of `K2`, 3: of `K3`),
frequency_parameters.hpp:28-33, for the parameter `COUNT`. -/
def points (count : Nat) (cls : Nat) (bosonic : Bool) : Nat :=
  match cls, bosonic with
  | 1, true => count * 4 * 2 * 16 + 1
  | 1, false => count * 32 * 2 * 2
  | 2, true => count * 4 * 2 * 2 + 1
  | 2, false => count * 2 * 2 * 2
  | _, true => count * 4 * 2 + 1
  | _, false => count * 2 * 2

/-- Limits and scale chosen by `guess_essential_parameters`, frequency_grid.c++:81-106: the scale and the limit derived
from the regulator are overwritten; `set_essential_parameters`, frequency_grid.hpp:129-171. -/
structure Params where
  n : Nat
  lower : ℚ
  upper : ℚ
  scale : ℚ
  deriving DecidableEq

/-- `guess_essential_parameters`, frequency_grid.c++:35-108; `regScale` is the scale derived from the regulator. -/
def guess (n : Nat) (regScale : ℚ) : Params :=
  let _wmaxGuess := regScale * 100
  let scale := 2
  let wmax : ℚ := (n : ℚ) - 1
  ⟨n, -wmax, wmax, scale⟩

/-- `t_from_frequency`, frequency_grid.c++:193-204: `grid_transf_lin`. -/
def Params.toT (g : Params) (w : ℚ) : ℚ := w / g.scale

/-- `frequency_from_t`, frequency_grid.c++:211-221: `grid_transf_inv_lin`; the offset of one is added for integer
frequencies only. -/
def Params.ofT (g : Params) (t : ℚ) : ℚ := t * g.scale

/-- `spacing_auxiliary_gridpoint`, frequency_grid.c++:30-34. -/
def Params.spacing (g : Params) : ℚ := (g.toT g.upper - g.toT g.lower) / ((g.n : ℚ) - 1)

/-- `all_frequencies[i]`, frequency_grid.c++:10-19. -/
def Params.freq (g : Params) (i : Nat) : ℚ := g.ofT (g.toT g.lower + (i : ℚ) * g.spacing)

/-- `all_frequencies`. -/
def Params.freqs (g : Params) : List ℚ := (List.range g.n).map g.freq

/-- `get_grid_index(w_in)` with `DENSEGRID`, frequency_grid.c++:119-123. -/
def Params.index (g : Params) (w : ℚ) : Int := truncQ ((g.toT w - g.toT g.lower) / g.spacing + 1 / 10)

/-- `is_in_box` for one frequency, frequency_grid.hpp:431-434 (`w_center` is zero); `tol` is `inter_tol`. -/
def inBox1 (g : Params) (tol w : ℚ) : Bool := decide (|w| < g.upper + tol)

/-- `is_in_box` for two frequencies, frequency_grid.hpp:435-448, the branch for finite temperature. -/
def inBox2 (b f : Params) (tol w v : ℚ) : Res Bool := do
  let c ← signFlip w
  return decide (|w| < b.upper + tol) && (decide (v > -f.upper - tol) && decide (v < f.upper + c + tol))

/-- `is_in_box` for three frequencies, frequency_grid.hpp:449-453. -/
def inBox3 (b f : Params) (tol w v vp : ℚ) : Bool :=
  decide (|w| < b.upper + tol) && (decide (|v| < f.upper + tol) && decide (|vp| < f.upper + tol))

/-- Access to the data with bounds check along one axis. -/
def at? {V : Type} (n : Nat) (i : Int) (f : Nat → Res V) : Res V :=
  if 0 ≤ i ∧ i < n then f i.toNat else .error .assertion

/-- `interpolate_impl` for one frequency, data_buffer.hpp:96-108, with `interpolate_nearest1D`,
InterpolatorLinOrSloppy.hpp:30-39. -/
def read1 {V : Type} [Zero V] (g : Params) (tol : ℚ) (data : Nat → V) (w : ℚ) : Res V :=
  if inBox1 g tol w then at? g.n (g.index w) fun i => .ok (data i) else .ok 0

/-- `interpolate_impl` for two frequencies, data_buffer.hpp:109-118. -/
def read2 {V : Type} [Zero V] (b f : Params) (tol : ℚ) (data : Nat → Nat → V) (w v : ℚ) : Res V := do
  if ← inBox2 b f tol w v then
    at? b.n (b.index w) fun i => at? f.n (f.index v) fun j => .ok (data i j)
  else return 0

/-- `interpolate_impl` for three frequencies, data_buffer.hpp:119-131. -/
def read3 {V : Type} [Zero V] (b f : Params) (tol : ℚ) (data : Nat → Nat → Nat → V) (w v vp : ℚ) : Res V :=
  if inBox3 b f tol w v vp then
    at? b.n (b.index w) fun i => at? f.n (f.index v) fun j => at? f.n (f.index vp) fun l => .ok (data i j l)
  else .ok 0

/-- `is_doubleOccurencies`, math_utils.c++:128-133: `freqs.size() - 1` is unsigned, so that an empty list is read out
of bounds. -/
def doubleOccurrences (l : List ℚ) : Res Nat :=
  if l = [] then .error .undefined
  else .ok (if (List.range (l.length - 1)).any fun i => l.getD i 0 == l.getD (i + 1) 0 then 1 else 0)

/-- `is_symmetric`, math_utils.c++:135-142. -/
def asymmetry (l : List ℚ) : Res ℚ :=
  if l = [] then .error .undefined
  else .ok ((List.range (l.length - 1)).map fun i => |l.getD i 0 + l.getD (l.length - i - 1) 0|).sum

/-- `initialize_grid`, frequency_grid.c++:10-26, with its assertion. -/
def build (g : Params) : Res (List ℚ) := do
  let d ← doubleOccurrences g.freqs
  if d = 0 then return g.freqs else throw .assertion

end Verif.Dense
