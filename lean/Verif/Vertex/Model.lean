import Verif.Outcome
import Verif.Freqs.Model
import Verif.Symmetries.Model
import Mathlib.Algebra.Group.Defs
import Mathlib.Algebra.Group.Basic

/-
Model of the evaluation of four-point vertices, /repo/source/correlation_functions/four_point/vertex.hpp
and r_vertex.hpp, without the single-boson-exchange decomposition (`SBE_DECOMPOSITION == 0`).
Numbers are elements of an additive commutative group: all values are finite, so the assertions on
`my_isfinite` hold.
-/
namespace Verif.Vertex

open Freqs (Ch Fr)

/-- Diagrammatic classes `k1`, `k2`, `k2b`, `k3` (data_structures.hpp). -/
inductive KC
  | k1 | k2 | k2b | k3
  deriving DecidableEq, Repr

/-- `VertexInput`, data_structures.hpp: Keldysh index, spin, internal index, frequencies. -/
structure Input (F : Type) where
  iK : Nat
  spin : Nat
  iIn : Nat
  f : Fr F

/-- Build options: `MAX_DIAG_CLASS`, whether `STATIC_FEEDBACK` is defined, `2 * glb_mu`, the number
zero, and the frequency conversion `transfToR<ch_bubble>` of an `rvert` of a channel. -/
structure Conf (F : Type) where
  maxDiag : Nat
  static : Bool
  zero : F
  twoMu : F
  tr : Ch → Ch → Fr F → Fr F

/-- How `rvert::valsmooth<k>(input, rvert_crossing)` (r_vertex.hpp:487-517) reads a class of a channel
object, given the object of the channel related by crossing. The overloads with a second vertex pass the
objects of the second vertex as well: they are the case in which an object is a pair (object of the left
vertex, object of the right vertex). The `_symmetry_expanded` versions are the case in which the crossing
object is not used. -/
abbrev Reader (R F V : Type) := KC → R → R → Input F → V

/-- `fullvert`, vertex.hpp:112-150: value of the irreducible part and the three channels. -/
structure Full (R V : Type) where
  irred : Nat → Nat → Nat → V
  a : R
  p : R
  t : R

/-- Object of a channel. -/
def Full.ch {R V : Type} (Γ : Full R V) : Ch → R
  | .a => Γ.a
  | .p => Γ.p
  | .t => Γ.t

/-- Object passed as `rvert_crossing`. -/
def Full.crossing {R V : Type} (Γ : Full R V) : Ch → R
  | .a => Γ.t
  | .p => Γ.p
  | .t => Γ.a

section
variable {R F V : Type} [AddCommGroup V]

/-- `rvert::value<ch_bubble>`, r_vertex.hpp:1390-1428; `this` has channel `dst`. -/
def rvValue (cf : Conf F) (rd : Reader R F V) (dst src : Ch) (this cross : R) (x : Input F) : V :=
  let y : Input F := ⟨x.iK, x.spin, x.iIn, cf.tr dst src x.f⟩
  let v1 := rd .k1 this cross y
  let v2 := if cf.maxDiag ≥ 2 then v1 + rd .k2 this cross y + rd .k2b this cross y else v1
  if cf.maxDiag ≥ 3 then v2 + rd .k3 this cross y else v2

/-- `rvert::left_same_bare`, r_vertex.hpp:1430-1455. -/
def rvLeftSame (cf : Conf F) (rd : Reader R F V) (this cross : R) (x : Input F) : V :=
  if cf.maxDiag > 1 then rd .k1 this cross x + rd .k2b this cross x else rd .k1 this cross x

/-- `rvert::right_same_bare`, r_vertex.hpp:1457-1481. -/
def rvRightSame (cf : Conf F) (rd : Reader R F V) (this cross : R) (x : Input F) : V :=
  if cf.maxDiag > 1 then rd .k1 this cross x + rd .k2 this cross x else rd .k1 this cross x

/-- `rvert::left_diff_bare`, r_vertex.hpp:1483-1507. -/
def rvLeftDiff (cf : Conf F) (rd : Reader R F V) (this cross : R) (x : Input F) : V :=
  if cf.maxDiag = 1 then 0
  else if cf.maxDiag = 2 then rd .k2 this cross x
  else rd .k2 this cross x + rd .k3 this cross x

/-- `rvert::right_diff_bare`, r_vertex.hpp:1509-1533. -/
def rvRightDiff (cf : Conf F) (rd : Reader R F V) (this cross : R) (x : Input F) : V :=
  if cf.maxDiag = 1 then 0
  else if cf.maxDiag = 2 then rd .k2b this cross x
  else rd .k2b this cross x + rd .k3 this cross x

/-- Value of the channel `c` of a vertex at arguments given in the convention of `b`. -/
def chValue (cf : Conf F) (rd : Reader R F V) (Γ : Full R V) (b c : Ch) (x : Input F) : V :=
  rvValue cf rd c b (Γ.ch c) (Γ.crossing c) x

/-- `fullvert::gammaRb<ch_bubble>`, vertex.hpp:1289-1323. -/
def gammaRb (cf : Conf F) (rd : Reader R F V) (Γ : Full R V) (b : Ch) (x : Input F) : V :=
  match b with
  | .a => chValue cf rd Γ b .p x + chValue cf rd Γ b .t x
  | .p => chValue cf rd Γ b .a x + chValue cf rd Γ b .t x
  | .t => chValue cf rd Γ b .a x + chValue cf rd Γ b .p x

/-- `fullvert::value<ch_bubble, r_irred>`, vertex.hpp:1264-1286. -/
def value (cf : Conf F) (rd : Reader R F V) (Γ : Full R V) (b : Ch) (rIrred : Bool) (x : Input F) : V :=
  if rIrred then Γ.irred x.iK x.iIn x.spin + gammaRb cf rd Γ b x
  else Γ.irred x.iK x.iIn x.spin + chValue cf rd Γ b .a x + chValue cf rd Γ b .p x
    + chValue cf rd Γ b .t x

/-- The contribution of the other channels with `STATIC_FEEDBACK` (`MAX_DIAG_CLASS <= 1`),
vertex.hpp:1337-1360. -/
def staticPart (cf : Conf F) (rd : Reader R F V) (Γ : Full R V) (b : Ch) (x : Input F) : V :=
  let xp : Input F := ⟨x.iK, x.spin, x.iIn, ⟨cf.twoMu, x.f.v1, x.f.v2⟩⟩
  let xat : Input F := ⟨x.iK, x.spin, x.iIn, ⟨cf.zero, x.f.v1, x.f.v2⟩⟩
  match b with
  | .a => rd .k1 Γ.p Γ.p xp + rd .k1 Γ.t Γ.a xat
  | .p => rd .k1 Γ.a Γ.t xat + rd .k1 Γ.t Γ.a xat
  | .t => rd .k1 Γ.a Γ.t xat + rd .k1 Γ.p Γ.p xp

/-- `fullvert::left_same_bare<ch_bubble, r_irred>`, vertex.hpp:1325-1400. -/
def leftSame (cf : Conf F) (rd : Reader R F V) (Γ : Full R V) (b : Ch) (rIrred : Bool) (x : Input F) :
    Res V :=
  let gamma0 := Γ.irred x.iK x.iIn x.spin
  if rIrred then .ok gamma0
  else
    let k := rvLeftSame cf rd (Γ.ch b) (Γ.crossing b) x
    let k := if cf.static && cf.maxDiag ≤ 1 then k + staticPart cf rd Γ b x else k
    .ok (gamma0 + k)

/-- `fullvert::right_same_bare<ch_bubble, r_irred>`, vertex.hpp:1402-1477. -/
def rightSame (cf : Conf F) (rd : Reader R F V) (Γ : Full R V) (b : Ch) (rIrred : Bool) (x : Input F) :
    Res V :=
  let gamma0 := Γ.irred x.iK x.iIn x.spin
  if rIrred then .ok gamma0
  else
    let k := rvRightSame cf rd (Γ.ch b) (Γ.crossing b) x
    let k := if cf.static && cf.maxDiag ≤ 1 then k + staticPart cf rd Γ b x else k
    .ok (gamma0 + k)

/-- `fullvert::left_diff_bare<ch_bubble, r_irred, only_channel_r>`, vertex.hpp:1479-1521. For a
channel-irreducible vertex and `MAX_DIAG_CLASS < 2` the returned variable is never assigned. -/
def leftDiff (cf : Conf F) (rd : Reader R F V) (Γ : Full R V) (b : Ch) (rIrred onlyR : Bool)
    (x : Input F) : Res V :=
  if rIrred then
    if cf.maxDiag ≥ 2 then .ok (gammaRb cf rd Γ b x) else .error .undefined
  else
    let k := rvLeftDiff cf rd (Γ.ch b) (Γ.crossing b) x
    if onlyR then .ok k else .ok (k + gammaRb cf rd Γ b x)

/-- `fullvert::right_diff_bare<ch_bubble, r_irred, only_channel_r>`, vertex.hpp:1523-1565. -/
def rightDiff (cf : Conf F) (rd : Reader R F V) (Γ : Full R V) (b : Ch) (rIrred onlyR : Bool)
    (x : Input F) : Res V :=
  if rIrred then
    if cf.maxDiag ≥ 2 then .ok (gammaRb cf rd Γ b x) else .error .undefined
  else
    let k := rvRightDiff cf rd (Γ.ch b) (Γ.crossing b) x
    if onlyR then .ok k else .ok (k + gammaRb cf rd Γ b x)

/-- `Integrand::compute_vertices`, bubble/integrand.hpp:411-492: the part of the left vertex used when
class `k` of the result is computed. -/
def integrandLeft (cf : Conf F) (rd : Reader R F V) (Γ : Full R V) (b : Ch) (rIrred onlyR : Bool)
    (k : KC) (x : Input F) : Res V :=
  if k = .k1 ∨ k = .k2b then leftSame cf rd Γ b rIrred x else leftDiff cf rd Γ b rIrred onlyR x

/-- The part of the right vertex used when class `k` of the result is computed. -/
def integrandRight (cf : Conf F) (rd : Reader R F V) (Γ : Full R V) (b : Ch) (rIrred onlyR : Bool)
    (k : KC) (x : Input F) : Res V :=
  if k = .k3 ∨ k = .k2b then rightDiff cf rd Γ b rIrred onlyR x else rightSame cf rd Γ b rIrred x

/-! ### Irreducible part -/

/-- Formalism: Keldysh basis, contour basis, imaginary frequencies. -/
inductive Basis
  | keldysh | contour | matsubara
  deriving DecidableEq, Repr

/-- `bare`, vertex.hpp:22-27: entries by Keldysh index and internal index. -/
abbrev Bare (V : Type) := Nat → Nat → V

/-- Number of Keldysh components of `bare`, vertex.hpp:23-26. -/
def nComp : Basis → Nat
  | .matsubara => 1
  | _ => 16

/-- `irreducible::setvert`, vertex.hpp:1232-1234. -/
def setvert (b : Bare V) (iK iIn : Nat) (v : V) : Bare V :=
  fun i j => if i = iK ∧ j = iIn then v else b i j

/-- `irreducible::initialize`, vertex.hpp:1236-1259. -/
def initBare (basis : Basis) (nIn : Nat) (b : Bare V) (val : V) : Bare V :=
  match basis with
  | .keldysh => Symmetries.oddKeldysh.foldl
      (fun b i => (List.range nIn).foldl (fun b j => setvert b i j val) b) b
  | .contour => (List.range nIn).foldl (fun b j => setvert (setvert b 0 j val) 15 j (-val)) b
  | .matsubara => (List.range nIn).foldl (fun b j => setvert b 0 j val) b

/-- `irreducible::val`, vertex.hpp:1183-1220; `at` checks its bounds (`MULTIARRAY_CHECK_BOUNDS`). -/
def irredVal (basis : Basis) (nIn : Nat) (b : Bare V) (iK iIn spin : Nat) : Res V :=
  if iK < nComp basis ∧ iIn < nIn then
    match spin with
    | 0 => .ok (b iK iIn)
    | 1 => .ok (-(b iK iIn))
    | 2 => .ok 0
    | _ => .error .assertion
  else
    match spin with
    | 0 | 1 => .error .assertion
    | 2 => .ok 0
    | _ => .error .assertion

end

end Verif.Vertex
