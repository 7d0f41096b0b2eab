import Verif.Symmetries.Reads
import Mathlib.Algebra.Algebra.Basic
import Mathlib.Algebra.Order.Field.Basic
import Mathlib.Data.List.Basic

/-
Model of `rvert::enforce_freqsymmetriesK1/K2/K3`,
/repo/source/correlation_functions/four_point/r_vertex.hpp:1781-1908: a parallel loop over all entries of a
buffer that overwrites entries outside the fundamental sector by values interpolated from the same buffer.
Frequencies are not rounded (real frequencies, or imaginary ones at zero temperature), and
`vertex_symmrelated` is the vertex itself, as in bubble_function.hpp:563-600.
-/
namespace Verif.Symmetries
open Verif.Freqs (Ch Fr)

/-- Which of the three functions: `K1`, `K2`, `K3`. -/
inductive Cls
  | k1 | k2 | k3
  deriving DecidableEq, Repr

/-- Multi-index of a buffer entry (the internal index has a single value). Frequency indices that a class does
not have are zero. -/
structure Key where
  spin : Nat
  iw : Nat
  iv : Nat
  ivp : Nat
  iK : Nat
  deriving DecidableEq, Repr

/-- Frequency grids of a buffer: bosonic and fermionic points, and the result of `get_grid_index` /
`get_auxgrid_index` (lower cell index and normalised distance). -/
structure Grids (K : Type) where
  nw : Nat
  nv : Nat
  w : Nat → K
  v : Nat → K
  cellW : K → Nat × K
  cellV : K → Nat × K

section
variable {K R : Type} [Field K] [LinearOrder K] [CommRing R] [StarRing R] [Algebra K R]

/-- Frequencies handed to the constructor of the indices, r_vertex.hpp:1792-1795, 1826-1829, 1868-1871. -/
def keyFreq (cls : Cls) (g : Grids K) (k : Key) : Fr K :=
  match cls with
  | .k1 => ⟨g.w k.iw, 0, 0⟩
  | .k2 => ⟨g.w k.iw, g.v k.iv, 0⟩
  | .k3 => ⟨g.w k.iw, g.v k.iv, g.v k.ivp⟩

/-- The initial indices of an iteration. -/
def keyInd (cls : Cls) (g : Grids K) (c : Ch) (k : Key) : Ind K :=
  { iK := k.iK, spin := k.spin, f := keyFreq cls g k, ch := c }

/-- The code of the transformation. -/
def select (cls : Cls) (cfg : Cfg) (ε : K) (c : Ch) (f : Fr K) : Option Nat :=
  match cls with
  | .k1 => selectK1 cfg ε c f
  | .k2 => selectK2 cfg ε c f
  | .k3 => selectK3 cfg ε (fun _ => 0) c f

/-- The transformed indices of an iteration; the initial ones if no transformation is selected. -/
def keyTransf (cls : Cls) (cfg : Cfg) (ε : K) (g : Grids K) (c : Ch) (k : Key) : Ind K :=
  let x := keyInd cls g c k
  match select cls cfg ε c x.f with
  | some i => match Ti cfg (fun _ => 0) i x with
    | .ok y => y
    | .error _ => x
  | none => x

/-- `trafo_index != 0`. -/
def moves (cls : Cls) (cfg : Cfg) (ε : K) (g : Grids K) (c : Ch) (k : Key) : Bool :=
  select cls cfg ε c (keyFreq cls g k) != some 0

/-- Linear interpolation in one direction, data_buffer.hpp:41-81: both neighbours are read. -/
def interp1 (cell : Nat × K) (f : Nat → R) : R := (1 - cell.2) • f cell.1 + cell.2 • f (cell.1 + 1)

/-- `interpolate(indices)` for arguments inside the grid. -/
def interp (cls : Cls) (g : Grids K) (s : Key → R) (y : Ind K) : R :=
  match cls with
  | .k1 => interp1 (g.cellW y.f.w) fun i => s ⟨y.spin, i, 0, 0, y.iK⟩
  | .k2 => interp1 (g.cellW y.f.w) fun i => interp1 (g.cellV y.f.v1) fun j => s ⟨y.spin, i, j, 0, y.iK⟩
  | .k3 => interp1 (g.cellW y.f.w) fun i => interp1 (g.cellV y.f.v1) fun j =>
      interp1 (g.cellV y.f.v2) fun l => s ⟨y.spin, i, j, l, y.iK⟩

/-- The entries that `interpolate` accesses. -/
def corners (cls : Cls) (g : Grids K) (y : Ind K) : List Key :=
  let i := (g.cellW y.f.w).1
  let j := (g.cellV y.f.v1).1
  let l := (g.cellV y.f.v2).1
  match cls with
  | .k1 => [i, i + 1].map fun i => ⟨y.spin, i, 0, 0, y.iK⟩
  | .k2 => [i, i + 1].flatMap fun i => [j, j + 1].map fun j => ⟨y.spin, i, j, 0, y.iK⟩
  | .k3 => [i, i + 1].flatMap fun i => [j, j + 1].flatMap fun j => [l, l + 1].map fun l =>
      ⟨y.spin, i, j, l, y.iK⟩

def Cls.kclass : Cls → KClass
  | .k1 => .k1 | .k2 => .k2 | .k3 => .k3

/-- `components.K(k, indices.spin, indices.iK) < 0` for the transformed indices (in the Matsubara formalism
no component vanishes). -/
def vanishing (cls : Cls) (cfg : Cfg) (c : Ch) (y : Ind K) : Bool :=
  cfg.keldysh && (component c cls.kclass y.spin y.iK).any (· < 0)

/-- The three accesses of an iteration: interpolation, `setvert(result)`, `setvert(0)`. -/
inductive Event
  | rd (k : Key) | wr (k : Key) | zr (k : Key)
  deriving DecidableEq

def Event.key : Event → Key
  | .rd k | .wr k | .zr k => k

/-- Buffer and the local variable `result` of each iteration. -/
structure St (R : Type) where
  store : Key → R
  result : Key → R

/-- One access. -/
def event (cls : Cls) (cfg : Cfg) (ε : K) (g : Grids K) (c : Ch) (s : St R) (e : Event) : St R :=
  let y := keyTransf cls cfg ε g c e.key
  match e with
  | .rd k => if moves cls cfg ε g c k then
      { s with result := Function.update s.result k (applyRead cfg y (interp cls g s.store y)) } else s
  | .wr k => if moves cls cfg ε g c k then
      { s with store := Function.update s.store k (s.result k) } else s
  | .zr k => if vanishing cls cfg c y then
      { s with store := Function.update s.store k 0 } else s

/-- Execution of a schedule. -/
def exec (cls : Cls) (cfg : Cfg) (ε : K) (g : Grids K) (c : Ch) (s : St R) (l : List Event) : St R :=
  l.foldl (event cls cfg ε g c) s

/-- The sequential loop over a list of entries. -/
def sequential (ks : List Key) : List Event := ks.flatMap fun k => [.rd k, .wr k, .zr k]

end

end Verif.Symmetries
