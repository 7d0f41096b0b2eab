import Verif.Symmetries.Enforce
import Verif.Freqs.Spec

/-
Symmetry reduction for imaginary frequencies at finite temperature: `enforce_freqsymmetriesK1/K2/K3`,
/repo/source/correlation_functions/four_point/r_vertex.hpp:1781-1908, and the selection of the entries that are
calculated, /repo/source/bubble/bubble_function.hpp:432-446, 735-880 (`VECTORIZED_INTEGRATION`). Frequencies are
integers, in units of `π T`; the grids are dense (`denseGrid`), so that every entry is a frequency and a look-up
reads a single entry (/repo/source/interpolations/InterpolatorLinOrSloppy.hpp:31-91).
-/
namespace Verif.Reduce
open Verif.Symmetries
open Verif.Freqs (Ch Fr halfFloor)

/-- A dense grid: `2 * nb + 1` bosonic and `2 * nf` fermionic frequencies (`DENSEGRID`),
frequency_grid.hpp:46-60, frequency_grid.c++:536-552. -/
structure Dense where
  nb : Nat
  nf : Nat

/-- Bosonic frequencies. -/
def Dense.w (d : Dense) (i : Nat) : Int := 2 * ((i : Int) - d.nb)

/-- Fermionic frequencies. -/
def Dense.v (d : Dense) (j : Nat) : Int := 2 * ((j : Int) - d.nf) + 1

/-- `get_wlower_f()`. -/
def Dense.lowest (d : Dense) : Int := -(2 * (d.nf : Int) - 1)

/-- `signFlipCorrection_MF` on even frequencies (theorem `Symmetries.c35_rounding`). -/
def corr (w : Int) : Int := halfFloor w - (w - halfFloor w)

/-- Frequencies of an entry. -/
def freqD (cls : Cls) (d : Dense) (k : Key) : Fr Int :=
  match cls with
  | .k1 => ⟨d.w k.iw, 0, 0⟩
  | .k2 => ⟨d.w k.iw, d.v k.iv, 0⟩
  | .k3 => ⟨d.w k.iw, d.v k.iv, d.v k.ivp⟩

/-- The initial indices of an iteration. -/
def indD (cls : Cls) (d : Dense) (c : Ch) (k : Key) : Ind Int :=
  { iK := k.iK, spin := k.spin, f := freqD cls d k, ch := c }

/-- The code of the transformation; for `K3` the sum of the fermionic frequencies is compared with half of the
correction, r_vertex.hpp:1876-1882. -/
def selectD (cls : Cls) (cfg : Cfg) (c : Ch) (f : Fr Int) : Option Nat :=
  match cls with
  | .k1 => selectK1 cfg 0 c f
  | .k2 => selectK2 cfg 0 c f
  | .k3 => selectK3 cfg 0 (fun w => corr w / 2) c f

/-- The transformed indices of an iteration. -/
def transfD (cls : Cls) (cfg : Cfg) (d : Dense) (c : Ch) (k : Key) : Ind Int :=
  let x := indD cls d c k
  match selectD cls cfg c x.f with
  | some i => match Ti cfg corr i x with
    | .ok y => y
    | .error _ => x
  | none => x

/-- `trafo_index != 0`. -/
def movesD (cls : Cls) (cfg : Cfg) (d : Dense) (c : Ch) (k : Key) : Bool :=
  selectD cls cfg c (freqD cls d k) != some 0

/-- The entries that are set to zero at the end of an iteration, r_vertex.hpp:1852, 1900 (both sides multiplied
by two). -/
def dropped (cls : Cls) (d : Dense) (k : Key) : Bool :=
  let low := fun v : Int => decide (-(2 * v) + corr (d.w k.iw) < 2 * d.lowest)
  match cls with
  | .k1 => false
  | .k2 => low (d.v k.iv)
  | .k3 => low (d.v k.iv) || low (d.v k.ivp)

variable {R : Type} [CommRing R] [StarRing R]

/-- `interpolate(indices)`: inside of the grid the entry at these frequencies; `out` is the extrapolation
outside of it, data_buffer.hpp:198-300. -/
def lookup (out : (Key → R) → Ind Int → R) (cls : Cls) (d : Dense) (s : Key → R) (y : Ind Int) : R :=
  let inW := |y.f.w| ≤ 2 * (d.nb : Int)
  let inV := fun v : Int => |v| ≤ 2 * (d.nf : Int) - 1
  let iw := (y.f.w / 2 + d.nb).toNat
  let iv := fun v : Int => ((v - 1) / 2 + d.nf).toNat
  match cls with
  | .k1 => if inW then s ⟨y.spin, iw, 0, 0, y.iK⟩ else out s y
  | .k2 => if inW ∧ inV y.f.v1 then s ⟨y.spin, iw, iv y.f.v1, 0, y.iK⟩ else out s y
  | .k3 => if inW ∧ inV y.f.v1 ∧ inV y.f.v2 then s ⟨y.spin, iw, iv y.f.v1, iv y.f.v2, y.iK⟩ else out s y

/-- One access of the parallel loop; no component vanishes without Keldysh indices, so that the last one only
sets the entries outside of the range of the transformation to zero. -/
def eventD (out : (Key → R) → Ind Int → R) (cls : Cls) (cfg : Cfg) (d : Dense) (c : Ch) (s : St R) (e : Event) :
    St R :=
  let y := transfD cls cfg d c e.key
  match e with
  | .rd k => if movesD cls cfg d c k then
      { s with result := Function.update s.result k (applyRead cfg y (lookup out cls d s.store y)) } else s
  | .wr k => if movesD cls cfg d c k then
      { s with store := Function.update s.store k (s.result k) } else s
  | .zr k => if dropped cls d k then
      { s with store := Function.update s.store k 0 } else s

/-- A schedule. -/
def execD (out : (Key → R) → Ind Int → R) (cls : Cls) (cfg : Cfg) (d : Dense) (c : Ch) (s : St R)
    (l : List Event) : St R :=
  l.foldl (eventD out cls cfg d c) s

/-- Entries that are calculated: with `DEBUG_SYMMETRIES` all of them; otherwise those with `w ≤ 0`
(`get_trafo_K1/K2/K3`) and a negative first fermionic frequency (`Nmax_v`). -/
def neededD (dbg : Bool) (cls : Cls) (d : Dense) (k : Key) : Bool :=
  dbg || (decide (d.w k.iw ≤ 0) && match cls with
    | .k1 => true
    | .k2 | .k3 => decide (k.iv < d.nf))

/-- The vertex after the bubble computation, bubble_function.hpp:312-361, 558-601. -/
def bubbleD (dbg : Bool) (out : (Key → R) → Ind Int → R) (cls : Cls) (cfg : Cfg) (d : Dense) (c : Ch)
    (val : Key → R) (l : List Event) : Key → R :=
  let start : Key → R := fun k => if neededD dbg cls d k then val k else 0
  if dbg then start else (execD out cls cfg d c ⟨start, fun _ => 0⟩ l).store

end Verif.Reduce
