import Verif.Fdt.Checks
import Verif.Fdt.Model
import Verif.Outcome

/-
The comparison of a whole vertex or state with the fluctuation-dissipation relations and its files: causality_FDT_checks.hpp:764-938 (Keldysh basis) and
causality_FDT_checks.c++:3-13.  Printed norms are left out.  The grid is that of the given state throughout.
-/
namespace Verif.Fdt
open Freqs (Ch)

/-- Extents and frequencies of the buffers. -/
structure Shape where
  maxClass : Nat
  nIn : Nat
  nSpin : Nat
  nv : Nat
  freq : Nat → ℝ
  n1 : Nat
  freq1 : Ch → Nat → ℝ
  n2 : Nat × Nat
  freq2 : Ch → Nat → Nat → ℝ × ℝ
  n3 : Nat × Nat × Nat
  freq3 : Ch → Nat → Nat → Nat → ℝ × ℝ × ℝ

/-- The reducible parts of a vertex: `K1`, `K2`, `K3` of every channel; and the rest (bare part, `K2b`). -/
structure Vert where
  k1 : Ch → Nat → Nat → Nat → Nat → ℂ
  k2 : Ch → Nat → Nat → Nat → Nat → Nat → ℂ
  k3 : Ch → Nat → Nat → Nat → Nat → Nat → Nat → ℂ
  rest : Nat → ℂ

/-- A state: self-energy and vertex. -/
structure St where
  se : Nat → Nat → Nat → ℂ
  vert : Vert

/-- Difference of vertices (C47). -/
noncomputable def Vert.sub (x y : Vert) : Vert := ⟨x.k1 - y.k1, x.k2 - y.k2, x.k3 - y.k3, x.rest - y.rest⟩

/-- Sum of vertices. -/
noncomputable def Vert.add (x y : Vert) : Vert := ⟨x.k1 + y.k1, x.k2 + y.k2, x.k3 + y.k3, x.rest + y.rest⟩

/-- Difference of states. -/
noncomputable def St.sub (x y : St) : St := ⟨x.se - y.se, x.vert.sub y.vert⟩

/-- Sum of states. -/
noncomputable def St.add (x y : St) : St := ⟨x.se + y.se, x.vert.add y.vert⟩

/-- `compute_components_through_FDTs(vertex_out, vertex_in, T)` for `vertex_out = vertex_in`, lines 764-768 and 841-847: the three channels one after the
other; each writes to its own buffers only. -/
noncomputable def project (g : Shape) (T : ℝ) (v : Vert) : Vert where
  k1 := fun c => computeK1 c g.n1 g.nIn (g.freq1 c) T (v.k1 c)
  k2 := fun c => if 1 < g.maxClass then computeK2 c g.n2.1 g.n2.2 g.nIn (g.freq2 c) T (v.k2 c) else v.k2 c
  k3 := fun c => if 2 < g.maxClass then computeK3 c g.n3.1 g.n3.2.1 g.n3.2.2 g.nSpin g.nIn (g.freq3 c) T (v.k3 c) else v.k3 c
  rest := v.rest

/-- Files with layers; `none`: a layer that has not been written. -/
abbrev Disk (α : Type) := String → Option (List (Option α))

/-- `write_state_to_hdf`, hdf5_routines.hpp:839-851: a new file with the given number of layers, the first one written. Without layers the library
raises an exception. -/
def create {α : Type} (d : Disk α) (name : String) (n : Nat) (s : α) : Res (Disk α) :=
  if n = 0 then .error .exception else .ok fun m => if m = name then some (some s :: List.replicate (n - 1) none) else d m

/-- `add_state_to_hdf`, hdf5_routines.hpp:865-888: a layer of an existing file; out of range only a message is printed. -/
def append {α : Type} (d : Disk α) (name : String) (i : Nat) (s : α) : Res (Disk α) :=
  match d name with
  | none => .error .exception
  | some l => .ok fun m => if m = name then some (l.set i (some s)) else d m

/-- Lines 906-912 and 927-935: the first layer creates the two files, the others are added. -/
def record {α : Type} (d : Disk α) (pre : String) (i n : Nat) (out diff : α) : Res (Disk α) :=
  if i = 0 then do
    let d ← create d (pre ++ "_FDTresult") n out
    create d (pre ++ "_FDTdiff") n diff
  else do
    let d ← append d (pre ++ "_FDTresult") i out
    append d (pre ++ "_FDTdiff") i diff

/-- `compare_with_FDTs` of a vertex, lines 856-914: the returned vertex and the files; the self-energy saved with it is empty. -/
noncomputable def compareVertex (keldysh : Bool) (g : Shape) (T : ℝ) (v : Vert) (i : Nat) (pre : String) (write : Bool) (n : Nat) (d : Disk St) :
    Res (Vert × Disk St) :=
  if keldysh then do
    let out := project g T v
    let d ← if write then record d pre i n ⟨0, out⟩ ⟨0, v.sub out⟩ else .ok d
    return (out, d)
  else .ok (v, d)

/-- `compare_with_FDTs` of a state, lines 920-937. -/
noncomputable def compareState (keldysh : Bool) (g : Shape) (T : ℝ) (s : St) (i : Nat) (pre : String) (write : Bool) (n : Nat) (d : Disk St) :
    Res (Disk St) := do
  let se := selfFDT g.nv g.nIn g.freq T s.se
  let (v, d) ← compareVertex keldysh g T s.vert i pre false n d
  let out : St := ⟨se, v⟩
  if write then record d pre i n out (out.sub s) else return d

/-- `compare_flow_with_FDTs`, causality_FDT_checks.c++:3-13, with `max` layers: the layers `0 … max - 1` of the file, one after the other, here given as
a list of states. The output goes to names made from the data directory and the name of the file that is read. -/
noncomputable def compareFlow (keldysh : Bool) (g : Shape) (T : ℝ) (layers : List St) (dir name : String) (write : Bool) (d : Disk St) :
    Res (Disk St) :=
  (layers.zipIdx).foldlM (fun d x => compareState keldysh g T x.1 x.2 (dir ++ name) write layers.length d) d

end Verif.Fdt
