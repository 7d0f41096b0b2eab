import Verif.Interp.Model
import Verif.FinDiff.Model
import Verif.Collapse.Model
import Verif.Freqs.Model
import Mathlib.Analysis.Complex.Basic

/-
Model of the frequency-dependent data buffer: changing the grid, the tails beyond the box at finite
temperature, and the measures used to optimise the grid.
/repo/source/correlation_functions/n_point/data_buffer.hpp:199-323, 529-561, 563-600 and
/repo/source/correlation_functions/n_point/data_container.hpp:194-364, 389-454.
-/
namespace Verif.Buffer
open Verif Verif.Index Verif.MultiArray Verif.Interp

section regrid
variable {V : Type} [AddCommMonoid V] [Module ℝ V]

/-- `frequencies_new.get_freqs_w(freqs, i_freqs)`, grids/frequency_grid.hpp: the frequencies of a grid point
(with range assertion), converted from the internal to the natural parametrisation (`unconv`). -/
noncomputable def gridFreqs (unconv : List ℝ → List ℝ) (axes : List Axis) (js : List Nat) : Res (List ℝ) := do
  let ws ← (List.zip axes js).mapM fun p => getFrequency p.1.grid (p.2 : Int)
  return unconv ws

/-- Value computed in one iteration, data_buffer.hpp:548-555: multi-index `idx`, frequencies of the *new*
grid, interpolation of the *old* data. -/
noncomputable def regridValue (meth : Method) (conv unconv : List ℝ → List ℝ) (old new : List Axis) (tol : ℝ)
    (data : MArr V) (pos : Nat) (idx : List Nat) : Res V := do
  let freqs ← gridFreqs unconv new ((idx.drop pos).take new.length)
  let r ← interpolate meth conv old tol data pos 1 freqs idx
  match r with
  | x :: _ => return x
  | [] => throw .undefined

/-- One iteration of the loop of `update_grid`, data_buffer.hpp:545-557. -/
noncomputable def regridStep (meth : Method) (conv unconv : List ℝ → List ℝ) (old new : List Axis) (tol : ℝ)
    (data : MArr V) (pos : Nat) (acc : MArr V) (iflat : Nat) : Res (MArr V) :=
  match getMultIndex iflat data.len with
  | none => .error .undefined
  | some idx => do
    let x ← regridValue meth conv unconv old new tol data pos idx
    acc.setAt idx x

/-- `update_grid(frequencies_new, buffer4data)`, data_buffer.hpp:538-561, up to the exchange of the grid
object.  The directive is `omp parallel` without `for`: every thread executes the complete loop, so `sched`,
the order in which the iterations are performed, contains every iteration once per thread.  (All threads
write the same value, so the order within one iteration is not resolved.) -/
noncomputable def regrid (meth : Method) (conv unconv : List ℝ → List ℝ) (old new : List Axis) (tol : ℝ)
    (data : MArr V) (pos : Nat) (sched : List Nat) : Res (MArr V) :=
  sched.foldlM (regridStep meth conv unconv old new tol data pos) (MArr.make data.len 0)

end regrid

section tails
variable {V : Type} [AddCommMonoid V] [Module ℚ V]

/-- Self-energy beyond the box, imaginary frequencies and finite temperature, data_buffer.hpp:209-229;
`val i` reads the stored entry of frequency index `i`, `n` is the number of grid points. -/
def tailSE (wmax : ℚ) (n : Nat) (val : Int → Res V) (w : ℚ) : Res V := do
  let x ← val (if w ≤ 0 then 0 else (n : Int) - 1)
  return (wmax / |w|) • x

/-- One bosonic frequency, data_buffer.hpp:230-244. -/
def tailK1 (wmax : ℚ) (val : Int → Res V) (w : ℚ) : Res V := do
  let x ← val 0
  return (wmax * wmax / (|w| * |w|)) • x

/-- Two frequencies, data_buffer.hpp:246-276; `look` is `primary_grid.get_grid_index`. -/
def tailK2 (wmax vmax : ℚ) (n : Nat) (look : ℚ → Res Int) (val : Int → Int → Res V) (w v : ℚ) : Res V :=
  if |w| > wmax then return 0
  else do
    let i ← look w
    let c ← Freqs.signFlipInt w
    let x ← val i (if v ≤ -vmax then 0 else (n : Int) - 1 + c)
    return (vmax * vmax / (v * v)) • x

/-- Choice of index and factor for one of the two fermionic frequencies, data_buffer.hpp:285-297, 298-309. -/
def tailAxis (vmax : ℚ) (n : Nat) (look : ℚ → Res Int) (c : Int) (v : ℚ) : Res (Int × ℚ) :=
  if v ≤ -vmax then return (0, vmax * vmax / (v * v))
  else if v ≥ vmax then return ((n : Int) - 1 + c, vmax * vmax / (v * v))
  else do
    let i ← look v
    return (i, 1)

/-- Three frequencies, data_buffer.hpp:277-318; both fermionic frequencies use the secondary grid
(`lookV`, `n`, `vmax`). -/
def tailK3 (wmax vmax : ℚ) (n : Nat) (look lookV : ℚ → Res Int) (val : Int → Int → Int → Res V)
    (w v vp : ℚ) : Res V :=
  if |w| > wmax then return 0
  else do
    let i ← look w
    let c ← Freqs.signFlipInt w
    let a ← tailAxis vmax n lookV c v
    let b ← tailAxis vmax n lookV c vp
    let x ← val i a.1 b.1
    return (1 * a.2 * b.2) • x

end tails

/-! ### Measures -/

/-- `analyze_tails<idim>(index)`, data_container.hpp:198-207: largest modulus at the grid point `index` from
the upper end divided by the largest modulus; `none` is NaN (0/0).  `axis` is `pos_first_freqpoint+idim`.
The position is an unsigned difference; out of range is undefined. -/
def analyzeTails {α : Type} [Zero α] (absf : α → ℚ) (emb : ℚ → α) (data : List α) (dims : List Nat)
    (axis index : Nat) (order : List Nat) : Res (Option ℚ) := do
  let total := (data.map absf).foldl max 0
  let along ← Collapse.maxabs absf emb data dims axis order
  let n ← Collapse.toRes dims[axis]?
  if index + 1 ≤ n then do
    let x ← Collapse.toRes along[n - 1 - index]?
    return if total = 0 then none else some (x / total)
  else throw .undefined

/-- Loop of `shrink_freq_box_impl`, data_container.hpp:343-346: number of grid points, counted from the upper
end, whose value lies below the threshold; `rest` lists the values from the upper end.  Running out of the
array is undefined. -/
noncomputable def countBelow (thr : ℝ) : List ℝ → Res Nat
  | [] => .error .undefined
  | x :: rest => open Classical in if x ≥ thr then .ok 0 else do
      let k ← countBelow thr rest
      return k + 1

/-- `shrink_freq_box_impl`, data_container.hpp:332-364: the new upper limit of the box, `none` if the grid is
returned as it is.  (`index + 1` of the code is `k` here, so `index` is `k - 1`.) -/
noncomputable def shrinkImpl (g : FreqGrid.Grid) (thr : ℝ) (along : List ℝ) : Res (Option ℝ) :=
  open Classical in
  if g.n ≠ along.length then .error .assertion
  else if along.foldl (fun m x => max m |x|) 0 < 1 / 10 ^ 20 then return none
  else do
    let k ← countBelow thr along.reverse
    if 0 < k then do
      let below ← getAux g ((k : Int) - 1)
      let above ← getAux g k
      let xb ← Collapse.toRes along.reverse[k - 1]?
      let xa ← Collapse.toRes along.reverse[k]?
      let h := (thr - xb) * (above - below) / (xa - xb)
      return some |g.ofT (below + h * (9 / 10))|
    else return none

/-- `shrink_freq_box`, data_container.hpp:389-454, for one axis: the calls to `shrink_freq_box_impl` are
commented out (399, 414, 419, 436, 440, 443); the grid is returned as it is. -/
def shrink (g : FreqGrid.Grid) (_thr : ℝ) (_along : List ℝ) : FreqGrid.Grid := g

/-- `max_norm`, multiarray.hpp:530-532. -/
noncomputable def maxNorm (l : List ℂ) : ℝ := l.foldl (fun m z => max m ‖z‖) 0

/-- `power2` of an array (entrywise square), multiplied by a number, added to an array. -/
def addSquares (acc : List ℂ) (c : ℝ) (l : List ℂ) : List ℂ :=
  List.zipWith (fun a z => a + (z * z) * (c : ℂ)) acc l

/-- `get_deriv_max`, data_container.hpp:261-287: axes `pos, …, pos+dims-1`; `none` is NaN (the factor `1/0` is
infinite and multiplies derivatives that are zero). -/
noncomputable def derivMax (data : MArr ℂ) (pos dims : Nat) : Res (Option ℝ) := open Classical in do
  let kmax := maxNorm data.elems
  let ds ← (List.range dims).mapM fun i => FinDiff.partialDerivArr ℝ data (pos + i)
  if kmax = 0 then return none
  let zero := data.elems.map fun _ => (0 : ℂ)
  return some (maxNorm (ds.foldl (fun acc d => addSquares acc 1 (d.elems.map (· * ((1 / kmax : ℝ) : ℂ)))) zero))

/-- `get_curvature_max`, data_container.hpp:288-328: all second derivatives, the mixed ones counted twice.
(For one frequency the code divides the curvature by the maximum before squaring; in exact arithmetic the same.) -/
noncomputable def curvatureMax (data : MArr ℂ) (pos dims : Nat) : Res (Option ℝ) := open Classical in do
  let kmax := maxNorm data.elems
  let zero := data.elems.map fun _ => (0 : ℂ)
  let total ← (List.range dims).foldlM (fun acc i => do
      let d ← FinDiff.partialDerivArr ℝ data (pos + i)
      (List.range (i + 1)).foldlM (fun acc j => do
        let e ← FinDiff.partialDerivArr ℝ d (pos + j)
        return addSquares acc (if j = i then 1 else 2) e.elems) acc) zero
  if kmax = 0 then return none
  return some (maxNorm total / (kmax * kmax))

end Verif.Buffer
