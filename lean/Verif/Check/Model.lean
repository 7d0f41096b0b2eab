import Verif.Symmetries.PropsEnforce

/-
Model of the symmetry check, `rvert::check_symmetries`
(/repo/source/correlation_functions/four_point/r_vertex.hpp:570-825, with `DEBUG_SYMMETRIES`) and
`fullvert::check_symmetries` (/repo/source/correlation_functions/four_point/vertex.hpp:2151-2155).
Frequencies are not rounded (real frequencies, or imaginary ones at zero temperature); no single-boson-exchange
decomposition.
-/
namespace Verif.Check
open Verif.Symmetries
open Verif.Freqs (Ch Fr)

/-- The buffer of one class of one channel: grids and entries. -/
structure Buf (K R : Type) where
  grid : Grids K
  data : Key → R

/-- A vertex: the buffers of every channel and class. -/
abbrev Vtx (K R : Type) := Ch → KClass → Buf K R

section
variable {K R : Type} [Field K] [LinearOrder K] [CommRing R] [StarRing R] [Algebra K R]

/-- Frequencies of an entry, r_vertex.hpp:591-592, 661-662, 719-720, 756-757. -/
def freq (k : KClass) (g : Grids K) (n : Key) : Fr K :=
  match k with
  | .k1 => ⟨g.w n.iw, 0, 0⟩
  | .k2 => ⟨g.w n.iw, g.v n.iv, 0⟩
  | .k2b => ⟨g.w n.iw, 0, g.v n.ivp⟩
  | .k3 => ⟨g.w n.iw, g.v n.iv, g.v n.ivp⟩

/-- `read_value<k>`, r_vertex.hpp:459-479: interpolation in the buffer of class `k`. -/
def fetch (k : KClass) (b : Buf K R) (y : Ind K) : R :=
  match k with
  | .k1 => interp .k1 b.grid b.data y
  | .k2 => interp .k2 b.grid b.data y
  | .k2b => interp1 (b.grid.cellW y.f.w) fun i => interp1 (b.grid.cellV y.f.v2) fun l =>
      b.data ⟨y.spin, i, 0, l, y.iK⟩
  | .k3 => interp .k3 b.grid b.data y

/-- `read_symmetryreduced_rvert<k>(indices, readMe)`, r_vertex.hpp:442-457, where `readMe` belongs to channel `c`:
`assert(indices.channel_rvert == readMe.channel)`. The assertion that the value is finite is not modelled. -/
def readFrom (cfg : Cfg) (v : Vtx K R) (k : KClass) (c : Ch) (y : Ind K) : Res R :=
  if y.ch = c then .ok (applyRead cfg y (fetch k (v c k) y)) else .error .assertion

/-- The channel of the vertex returned by `symmetry_reduce`, r_vertex.hpp:382-408: `crossing` is the channel of
`rvert_crossing` (vertex.hpp:2151-2154). -/
def reducedChannel (c : Ch) (y : Ind K) : Ch := if y.ch ≠ c then switchChannel c else c

/-- `transformations.K(k, spin)`. -/
def table (cfg : Cfg) (c : Ch) (k : KClass) (spin : Nat) : Option Nat :=
  if cfg.keldysh then compTransf c k spin else compTransfM c k spin

/-- `freq_transformations.K1/K2/K3[...]`, r_vertex.hpp:618-621, 683-688, 774-784; class `K2b` has none. -/
def freqCode (cfg : Cfg) (ε : K) (c : Ch) (k : KClass) (f : Fr K) : Option Nat :=
  match k with
  | .k1 => selectK1 cfg ε c f
  | .k2 => selectK2 cfg ε c f
  | .k2b => none
  | .k3 => selectK3 cfg ε (fun _ => 0) c f

/-- The class that is read for the symmetry-related value; r_vertex.hpp:726 reads `K2` for entries of `K2b`. -/
def partnerClass : KClass → KClass
  | .k2b => .k2
  | k => k

/-- The entry of `deviations_Ki` for one multi-index, r_vertex.hpp:583-634, 652-702, 710-733, 746-794. The deviation
from the value in the symmetry-reduced sector is replaced by the deviation from the frequency symmetry if the
component belongs to that sector (for `K1` only if the symmetry changes the arguments). -/
def deviation (cfg : Cfg) (ε : K) (v : Vtx K R) (c : Ch) (k : KClass) (n : Key) : Res R := do
  let x : Ind K := { iK := n.iK, spin := n.spin, f := freq k (v c k).grid n, ch := c }
  let direct ← readFrom cfg v k c x
  match table cfg c k n.spin with
  | none => .error .undefined
  | some i =>
    let y ← Ti cfg (fun _ => 0) i x
    let related ← readFrom cfg v (partnerClass k) (reducedChannel c y) y
    if i = 0 then
      match freqCode cfg ε c k x.f with
      | none => .ok (direct - related)
      | some j =>
        if k = .k1 ∧ j = 0 then .ok (direct - related)
        else do
          let z ← Ti cfg (fun _ => 0) j x
          let other ← readFrom cfg v k c z
          .ok (direct - other)
    else .ok (direct - related)

end

/-- `max_norm` of a list of values, given their absolute values (vec.hpp, multiarray.hpp; C07). -/
def maxNorm {F : Type} [Zero F] [Max F] (l : List F) : F := l.foldl max 0

section
variable {F : Type} [Field F] [LinearOrder F]

/-- The printed number, r_vertex.hpp:636, 704, 735-736, 796: nothing is printed if the buffer is (almost) zero. `tiny` is
`1e-30`. -/
def printed (tiny : F) (values deviations : List F) : Option F :=
  if tiny < maxNorm values then some (maxNorm deviations / maxNorm values) else none

/-- The values written to the file for `K2`, `K2b` and `K3`, r_vertex.hpp:798-823: deviation times `1 / max_norm`.
`none` is NaN, the product of zero and infinity; an infinite entry is not distinguished from it. -/
def saved (values deviations : List F) : List (Option F) :=
  deviations.map fun d => if maxNorm values = 0 then none else some (d * (1 / maxNorm values))

end

end Verif.Check
