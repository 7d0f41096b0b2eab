import Verif.Layout.Model
import Verif.Reduce.Model
import Verif.SpinSum.Model

/-
The computation of one class of a bubble on the real axis from beginning to end: `bubble_function`,
/repo/source/bubble/bubble_function.hpp:960-984 with 212-305 (distribution), 307-361 (which entries), 430-521
(integration and storage) and 555-602 (writing and completing by symmetry), and the integrand,
/repo/source/bubble/integrand.hpp:1001-1215. The parts are the models of `Verif.SpinSum`, `Verif.Keldysh`,
`Verif.Layout`, `Verif.Mpi` and `Verif.Reduce`; here they are put together. The values of the vertices and propagators at
an external entry and an integration frequency, and the integration routine, are parameters. Two spin components are
stored.
-/
namespace Verif.Pipeline
open Verif.Symmetries
open Verif.Freqs (Ch Fr)

/-- The channel in the notation of the Keldysh contraction. -/
def kch : Ch → Keldysh.Ch
  | .a => .a | .p => .p | .t => .t

/-- The class in the notation of the storage. -/
def lcls : Cls → Layout.Cls
  | .k1 => .k1 | .k2 => .k2 | .k3 => .k3

section
variable {K R X : Type} [Field K] [LinearOrder K] [CommRing R] [StarRing R] [Algebra K R]

/-- Extents of the result buffer, data_structures.hpp:463-507. -/
def dims (cls : Cls) (g : Grids K) (nK : Nat) : List Nat :=
  match cls with
  | .k1 => Layout.shape .k1 2 g.nw 1 1 nK 1
  | .k2 => Layout.shape .k2 2 g.nw g.nv 1 nK 1
  | .k3 => Layout.shape .k3 2 g.nw g.nv g.nv nK 1

/-- Multi-index of an entry. -/
def idxOf (cls : Cls) (k : Key) : List Nat := Layout.shape (lcls cls) k.spin k.iw k.iv k.ivp k.iK 0

/-- `convert_external_MPI_OMP_indices_to_physical_indices_K1/K2/K3`, bubble_function.hpp:648-734: the entry of a
multi-index. -/
def keyOf (cls : Cls) (idx : List Nat) : Key :=
  match cls, idx with
  | .k1, [s, w, k, _] => ⟨s, w, 0, 0, k⟩
  | .k2, [s, w, v, k, _] => ⟨s, w, v, 0, k⟩
  | .k3, [s, w, v, vp, k, _] => ⟨s, w, v, vp, k⟩
  | _, _ => ⟨0, 0, 0, 0, 0⟩

/-- What the integrand of an external entry (its Keldysh index is not used) finds at an integration frequency: values
of the vertices by spin component and Keldysh index, the propagators, and the integration routine. `diff`: the
differentiated bubble. -/
structure Input (X R : Type) where
  left : Key → X → Nat → Nat → R
  right : Key → X → Nat → Nat → R
  g1 : Key → X → Keldysh.Prop2 R
  g2 : Key → X → Keldysh.Prop2 R
  s1 : Key → X → Keldysh.Prop2 R
  s2 : Key → X → Keldysh.Prop2 R
  diff : Bool
  integrate : Key → (X → R) → R

/-- The propagator pair, bubble.hpp:259-284. -/
def Input.pair (I : Input X R) (c : Ch) (k : Key) (x : X) : Matrix (Fin 4) (Fin 4) R :=
  if I.diff then
    Keldysh.piMatrixDiff (kch c) (I.g1 k x).matrix (I.g2 k x).matrix (I.s1 k x).matrix (I.s2 k x).matrix
  else Keldysh.piMatrix (kch c) (I.g1 k x).matrix (I.g2 k x).matrix

/-- The matrix-valued integrand, integrand.hpp:1157-1197. -/
def Input.integrand (I : Input X R) (c : Ch) (k : Key) (x : X) : Matrix (Fin 4) (Fin 4) R :=
  SpinSum.matrixForm (kch c) k.spin
    ⟨fun s => Keldysh.loadLeft (kch c) (I.left k x s), fun _ => 0⟩
    ⟨fun s => Keldysh.loadRight (kch c) (I.right k x s), fun _ => 0⟩ (I.pair c k x)

/-- `calculate_value`, bubble_function.hpp:430-511: every entry of the matrix is integrated with the same nodes. -/
def Input.matrix (I : Input X R) (c : Ch) (k : Key) (i j : Nat) : R :=
  I.integrate k fun x => if h : i < 4 ∧ j < 4 then I.integrand c k x ⟨i, h.1⟩ ⟨j, h.2⟩ else 0

/-- `data.at(idx)`. -/
def access (idx dims : List Nat) (l : List R) : R :=
  match Index.getFlatIndex idx dims with
  | some p => l.getD p 0
  | none => 0

/-- The computation of one class: parallel evaluation on `ws` processes and `nodes` nodes with the thread schedule
`sched`, storage, and completion by symmetry with the access order `l`. -/
def call (dbg : Bool) (cls : Cls) (cfg : Cfg) (ε : K) (g : Grids K) (c : Ch) (I : Input X R) (ws nodes : Nat)
    (small : R → Bool) (sched : Nat → Nat → List (Nat × Nat)) (l : List Event) : Res (Key → R) := do
  let out ← Layout.run .keldysh (lcls cls) (dims cls g 16)
    (fun idx => decide (Reduce.trafo dbg cls cfg ε g c (keyOf cls idx) = 0))
    (fun nvec idx => Layout.storeKeldysh (kch c) nvec (I.matrix c (keyOf cls idx))) ws nodes small sched
  let s : Key → R := fun k => access (idxOf cls k) (dims cls g 16) out
  return if dbg then s else (exec cls cfg ε g c ⟨s, fun _ => 0⟩ l).store

end

end Verif.Pipeline
