import Verif.FreqGrid.Model
import Verif.MultiArray.Model
import Mathlib.Algebra.Module.Defs
import Mathlib.Data.Real.Basic

/-
Model of the interpolation of vertex and self-energy data,
/repo/source/correlation_functions/n_point/data_buffer.hpp:41-329 (class `Interpolator`), of the look-ups
of `bufferFrequencyGrid` (grids/frequency_grid.hpp:431-568) and of the stand-alone interpolators of
/repo/source/interpolations/InterpolatorLinOrSloppy.hpp, utilities/math_utils.hpp:81-102.

Doubles are real numbers; the data (`double` or `comp`) live in a real vector space `V`, so that a product
`weight * value` is a scalar multiple.  The finiteness assertions hold in exact arithmetic and are omitted.
`DENSEGRID` is not modelled.
-/
namespace Verif.Interp
open Verif Verif.FreqGrid Verif.MultiArray

/-- The two linear methods, parameters/technical_parameters.hpp:18. -/
inductive Method where
  | linear | linearOnAux

/-- One frequency axis of the buffer: a grid and its `w_center`. -/
structure Axis where
  grid : Grid
  center : ℝ

/-- `get_frequency(index)`, frequency_grid.hpp:119: asserts the range. -/
noncomputable def getFrequency (g : Grid) (i : Int) : Res ℝ :=
  if 0 ≤ i ∧ i < g.n then .ok (g.freq i.toNat) else .error .assertion

/-- `get_auxiliary_gridpoint(index)`, frequency_grid.hpp:120: asserts the range. -/
noncomputable def getAux (g : Grid) (i : Int) : Res ℝ :=
  if 0 ≤ i ∧ i < g.n then .ok (g.aux i.toNat) else .error .assertion

/-- One axis of `get_grid_index`, frequency_grid.hpp:456-510, in a build with
`INTERPOLATION == linear`: cell of `wIdx` and normalised distance of `w`. -/
noncomputable def locateLinear (g : Grid) (wIdx w : ℝ) : Res (Nat × ℝ) := do
  let i := g.indexLinear wIdx
  let lo ← getFrequency g i
  let hi ← getFrequency g (i + 1)
  return (i.toNat, (w - lo) / (hi - lo))

/-- One axis of `get_auxgrid_index`, frequency_grid.hpp:512-568. -/
noncomputable def locateAux (g : Grid) (w : ℝ) : Res (Nat × ℝ) := do
  let r ← g.index2 w
  let lo ← getAux g r.2
  let hi ← getAux g (r.2 + 1)
  return (r.2.toNat, (r.1 - lo) / (hi - lo))

/-- `get_grid_index` (456-510) and `get_auxgrid_index` (512-568) for one to three frequencies; `conv` is
the conversion to internal frequencies.  With the linear method and three frequencies the cells are looked
up for the *unconverted* frequencies (493-495). -/
noncomputable def locateAll (meth : Method) (conv : List ℝ → List ℝ) (axes : List Axis)
    (freqs : List ℝ) : Res (List (Nat × ℝ)) :=
  match meth with
  | .linearOnAux => (List.zip axes (conv freqs)).mapM fun p => locateAux p.1.grid p.2
  | .linear =>
    (List.zip axes (List.zip (if axes.length = 3 then freqs else conv freqs) (conv freqs))).mapM
      fun p => locateLinear p.1.grid p.2.1 p.2.2

/-- `weights[k] *= c`. -/
def mulAt (k : Nat) (c : ℝ) (w : List ℝ) : List ℝ := w.modify k (c * ·)

/-- First loop of `get_weights`, data_buffer.hpp:56-59: the lower half gets `1 - dw`, the upper half `dw`. -/
def weightsInit (half : Nat) (d : ℝ) : List ℝ := List.replicate half (1 - d) ++ List.replicate half d

/-- `get_weights`, data_buffer.hpp:56-77, for the normalised distances of one, two or three axes. -/
def weights : List ℝ → List ℝ
  | [d0] => weightsInit 1 d0
  | [d0, d1] =>
    (List.range 2).foldl (fun w j => mulAt (2*j+1) d1 (mulAt (2*j) (1 - d1) w)) (weightsInit 2 d0)
  | [d0, d1, d2] =>
    let w := (List.range 2).foldl (fun w j => (List.range 2).foldl
      (fun w i => mulAt (4*j+i+2) d1 (mulAt (4*j+i) (1 - d1) w)) w) (weightsInit 4 d0)
    (List.range 4).foldl (fun w j => mulAt (1+j*2) d2 (mulAt (j*2) (1 - d2) w)) w
  | _ => []

/-- `idx_low[pos_first_freqpoint+i] = freq_idx[i]`, data_buffer.hpp:51-52. -/
def setFrom (idx : List Nat) (pos : Nat) : List Nat → List Nat
  | [] => idx
  | k :: ks => setFrom (idx.set pos k) (pos + 1) ks

/-- `values * weights` (Eigen product), one entry per row of `values`; `cols` are the columns. -/
def matVec {V : Type} [AddCommMonoid V] [Module ℝ V] (vecsize : Nat) (cols : List (List V))
    (w : List ℝ) : List V :=
  (List.range vecsize).map fun v => (List.zipWith (fun c x => x • c.getD v 0) cols w).sum

/-- `is_in_box`, frequency_grid.hpp:435-448, for the real-frequency and zero-temperature builds. -/
def allInBox (tol : ℝ) (axes : List Axis) (ws : List ℝ) : Prop :=
  List.Forall₂ (fun a w => inBox a.grid.upper a.center tol w) axes ws

open Classical in
/-- `interpolate_impl`, data_buffer.hpp:83-329, for the real-frequency and zero-temperature builds without
`DENSEGRID`: zero outside the box; inside, the weighted sum of the corner values.
`vecsize = 1` is the scalar result.  `assert(freq_idx[i] < 10000)` is data_buffer.hpp:52. -/
noncomputable def interpolate {V : Type} [AddCommMonoid V] [Module ℝ V] (meth : Method)
    (conv : List ℝ → List ℝ) (axes : List Axis) (tol : ℝ) (data : MArr V) (pos vecsize : Nat)
    (freqs : List ℝ) (indices : List Nat) : Res (List V) :=
  if allInBox tol axes (conv freqs) then do
    let loc ← locateAll meth conv axes freqs
    if ¬ (∀ p ∈ loc, p.1 < 10000) then throw .assertion
    let cols ← data.getValues axes.length pos vecsize 2 (setFrom indices pos (loc.map (·.1)))
    return matVec vecsize cols (weights (loc.map (·.2)))
  else return List.replicate vecsize 0

/-! ### Stand-alone interpolators -/

/-- `interpolate_lin_on_aux1D/2D/3D`, InterpolatorLinOrSloppy.hpp:197-281: the 2D and 3D versions call the
next lower one for both neighbours; here one recursion over the axes. -/
noncomputable def linOnAux {V : Type} [AddCommMonoid V] [Module ℝ V] :
    List Grid → List ℝ → (List Int → Res V) → Res V
  | g :: gs, x :: xs, val => do
    let r ← g.index2 x
    let x1 ← getAux g r.2
    let x2 ← getAux g (r.2 + 1)
    let xd := (r.1 - x1) / (x2 - x1)
    let f1 ← linOnAux gs xs fun k => val (r.2 :: k)
    let f2 ← linOnAux gs xs fun k => val ((r.2 + 1) :: k)
    return (1 - xd) • f1 + xd • f2
  | _, _, val => val []

/-- The four-point formula of `interpolate_sloppycubic*`, InterpolatorLinOrSloppy.hpp:310-313. -/
def fourPoint {K V : Type} [Field K] [AddCommMonoid V] [Module K V] (t x0 x1 x2 x3 : K) (f0 f1 f2 f3 : V) : V :=
  ((t - x1)*(t - x2)*(t - x3)/((x0-x1)*(x0-x2)*(x0-x3))) • f0
  + ((t - x0)*(t - x2)*(t - x3)/((x1-x0)*(x1-x2)*(x1-x3))) • f1
  + ((t - x0)*(t - x1)*(t - x3)/((x2-x0)*(x2-x1)*(x2-x3))) • f2
  + ((t - x0)*(t - x1)*(t - x2)/((x3-x0)*(x3-x1)*(x3-x2))) • f3

/-- `interpolate_sloppycubic1D/2D/3D`, InterpolatorLinOrSloppy.hpp:293-391, one recursion over the axes. -/
noncomputable def sloppyCubic {V : Type} [AddCommMonoid V] [Module ℝ V] :
    List Grid → List ℝ → (List Int → Res V) → Res V
  | g :: gs, x :: xs, val => do
    let r ← g.index2 x
    let x0 ← getAux g (r.2 - 1)
    let x1 ← getAux g r.2
    let x2 ← getAux g (r.2 + 1)
    let x3 ← getAux g (r.2 + 2)
    let f0 ← sloppyCubic gs xs fun k => val ((r.2 - 1) :: k)
    let f1 ← sloppyCubic gs xs fun k => val (r.2 :: k)
    let f2 ← sloppyCubic gs xs fun k => val ((r.2 + 1) :: k)
    let f3 ← sloppyCubic gs xs fun k => val ((r.2 + 2) :: k)
    return fourPoint r.1 x0 x1 x2 x3 f0 f1 f2 f3
  | _, _, val => val []

/-- `lagrangePoly`, math_utils.hpp:81-102: `n` nodes `xs`, values `ys`; the two inner loops skip `k = i`. -/
def lagrangePoly {K : Type} [Field K] (n : Nat) (x : K) (xs ys : Nat → K) : K :=
  (List.range n).foldl (fun result i =>
    let skip := List.range i ++ List.range' (i + 1) (n - (i + 1))
    let nd := skip.foldl (fun (p : K × K) k => (p.1 * (x - xs k), p.2 * (xs i - xs k))) (1, 1)
    result + ys i * nd.1 / nd.2) 0

end Verif.Interp
