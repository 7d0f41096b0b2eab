import Verif.Symmetries.PropsEnforce

/-
Symmetry reduction of the bubble computation: entries outside of the fundamental sector are not calculated but
filled in afterwards (/repo/source/bubble/bubble_function.hpp:312-361, 555-602, 737-880), and the left and right
parts of the multi-loop flow are put in order once both are known
(/repo/source/correlation_functions/four_point/vertex.hpp:1762-1797).
Real frequencies with vectorisation over the Keldysh components (`VECTORIZED_INTEGRATION`); `DEBUG_SYMMETRIES` is
the parameter `dbg`. Frequencies are elements of an ordered field.
-/
namespace Verif.Reduce
open Verif.Symmetries
open Verif.Freqs (Ch Fr)

section
variable {K R : Type} [Field K] [LinearOrder K] [CommRing R] [StarRing R] [Algebra K R]

/-- `get_trafo_K1`, bubble_function.hpp:737-774 (vectorised Keldysh branch). -/
def trafoK1 (dbg : Bool) (cfg : Cfg) (ε : K) (c : Ch) (w : K) : Int :=
  if dbg then 0
  else if (freqK1 cfg.keldysh cfg.ph c)[signIndex ε w]? = some 0 then 0 else 1

/-- `get_trafo_K2`, bubble_function.hpp:776-820 (vectorised Keldysh branch). -/
def trafoK2 (dbg : Bool) (cfg : Cfg) (ε : K) (c : Ch) (w v : K) : Int :=
  if dbg then 0
  else if (freqK2 cfg.keldysh cfg.ph c)[signIndex ε w * 2 + signIndex ε v]? = some 0 then 0 else 1

/-- `get_trafo_K3`, bubble_function.hpp:822-880 (vectorised Keldysh branch). -/
def trafoK3 (dbg : Bool) (cfg : Cfg) (ε : K) (c : Ch) (w v vp : K) : Int :=
  if dbg then 0
  else if (freqK3 cfg.keldysh cfg.ph c)[signIndex ε w * 4 + signIndex ε (v + vp) * 2 + signIndex ε (v - vp)]? =
    some 0 then 0 else 1

/-- The choice of the function in `get_value`, bubble_function.hpp:312-361. -/
def trafo (dbg : Bool) (cls : Cls) (cfg : Cfg) (ε : K) (g : Grids K) (c : Ch) (k : Key) : Int :=
  match cls with
  | .k1 => trafoK1 dbg cfg ε c (g.w k.iw)
  | .k2 => trafoK2 dbg cfg ε c (g.w k.iw) (g.v k.iv)
  | .k3 => trafoK3 dbg cfg ε c (g.w k.iw) (g.v k.iv) (g.v k.ivp)

/-- The buffer handed to `set_vec`: `val` is what the integrator returns for an entry (`calculate_value`);
components of `value_type value(n_vectorization)` that are not calculated are zero. -/
def calculated (dbg : Bool) (cls : Cls) (cfg : Cfg) (ε : K) (g : Grids K) (c : Ch) (val : Key → R) : Key → R :=
  fun k => if trafo dbg cls cfg ε g c k = 0 then val k else 0

/-- `write_out_results_K1`, `_K2`, `_K3`, bubble_function.hpp:555-602: `l` is the order of the accesses of the
parallel loop. -/
def bubble (dbg : Bool) (cls : Cls) (cfg : Cfg) (ε : K) (g : Grids K) (c : Ch) (val : Key → R)
    (l : List Event) : Key → R :=
  if dbg then calculated dbg cls cfg ε g c val
  else (exec cls cfg ε g c ⟨calculated dbg cls cfg ε g c val, fun _ => 0⟩ l).store

/-- One access of `enforce_freqsymmetriesK1/K2/K3(vertex_symmrelated)`, r_vertex.hpp:1781-1908, when
`vertex_symmrelated` is a different vertex, with values `other`. -/
def eventWith (cls : Cls) (cfg : Cfg) (ε : K) (g : Grids K) (c : Ch) (other : Key → R) (s : St R) (e : Event) :
    St R :=
  let y := keyTransf cls cfg ε g c e.key
  match e with
  | .rd k => if moves cls cfg ε g c k then
      let source := if y.asym then other else s.store
      { s with result := Function.update s.result k (applyRead cfg y (interp cls g source y)) } else s
  | .wr k => if moves cls cfg ε g c k then
      { s with store := Function.update s.store k (s.result k) } else s
  | .zr k => if vanishing cls cfg c y then
      { s with store := Function.update s.store k 0 } else s

/-- `enforce_freqsymmetriesKi(vertex_symmrelated)` for a schedule of the parallel loop. -/
def execWith (cls : Cls) (cfg : Cfg) (ε : K) (g : Grids K) (c : Ch) (other : Key → R) (s : St R)
    (l : List Event) : St R :=
  l.foldl (eventWith cls cfg ε g c other) s

/-- `reorder_due2antisymmetry`, vertex.hpp:1762-1795, for one channel and class: first the left part is
completed with the help of the right part, then the right part with the help of the new left part. -/
def reorder (cls : Cls) (cfg : Cfg) (ε : K) (g : Grids K) (c : Ch) (left right : Key → R) (l l' : List Event) :
    (Key → R) × (Key → R) :=
  let left' := (execWith cls cfg ε g c right ⟨left, fun _ => 0⟩ l).store
  let right' := (execWith cls cfg ε g c left' ⟨right, fun _ => 0⟩ l').store
  (left', right')

end

end Verif.Reduce
