import Verif.Vertex.Model
import Verif.Keldysh.Model

/-
Model of the expansion of a vertex before a bubble or a loop is computed: `rvert::symmetry_expand`
(/repo/source/correlation_functions/four_point/r_vertex.hpp:833-971), `fullvert::symmetry_expand`
(/repo/source/correlation_functions/four_point/vertex.hpp:2157-2163), `GeneralVertex::symmetry_expand_impl`
(vertex.hpp:794-824), `GeneralVertex::symmetry_expand` (vertex.hpp:1077-1109) and the readers
`*_symmetry_expanded` (vertex.hpp:934-979, 1568-1759; r_vertex.hpp:1535-1595), without the single-boson-exchange
decomposition.
-/
namespace Verif.Expand

open Freqs (Ch Fr)
open Vertex (KC Input Reader Full Conf)

/-- Grid indices `(iw, iv, ivp)`; a class uses those it has arguments for. -/
structure Pt where
  iw : Nat
  iv : Nat
  ivp : Nat
  deriving DecidableEq, Repr

/-- The numerical part of a buffer (data_buffer.hpp): the frequencies of the grid points (`get_freqs_w`) of a
class, which positions exist, and the interpolation of the values of one component (`interpolate`).
Simplified: the values of a component are interpolated independently of the other components (C39). -/
structure Numerics (G F V : Type) where
  inside : G → KC → Pt → Bool
  freq : G → KC → Pt → Fr F
  interp : G → KC → (Pt → V) → Fr F → V

/-- A buffer of one class: its grid and its entries `(spin, Keldysh, internal)` at the grid points. -/
structure Buf (G V : Type) where
  grid : G
  data : Nat → Nat → Nat → Pt → V

/-- `rvert`: the buffers of the classes `K1`, `K2`, `K2b`, `K3`. -/
abbrev Rv (G V : Type) := KC → Buf G V

/-- The class whose frequency grid is copied, r_vertex.hpp:840-851: `K2b` uses that of `K2`. -/
def gridClass : KC → KC
  | .k2b => .k2
  | k => k

section
variable {G F V : Type}

/-- `rvert::read_value<k>` without symmetry reduction (`DEBUG_SYMMETRIES`), r_vertex.hpp:487-517: the entry at the
given spin, Keldysh and internal index of the own buffer, interpolated. The other channel is not used. -/
def readStored (N : Numerics G F V) : Reader (Rv G V) F V :=
  fun k this _ x => N.interp (this k).grid k ((this k).data x.spin x.iK x.iIn) x.f

/-- `rvert::valsmooth_symmetry_expanded<k>`, r_vertex.hpp:520-528: the entry of the expanded buffer. -/
def readExpanded (N : Numerics G F V) : Reader (Rv G V) F V :=
  fun k this _ x => N.interp (this k).grid k ((this k).data x.spin x.iK x.iIn) x.f

/-- `rvert::symmetry_expand<channel_bubble, is_left_vertex>`, r_vertex.hpp:833-971, for the class `k`. The stored
channel objects `this` and `cross` are read with `rd`; for a vertex made of two different halves the object is a pair
of the objects of both halves, and `own` selects the first. The loops over flat positions visit every entry of the
target once (C01); entries which do not exist keep the value zero. Simplified: all frequencies are finite. -/
def expandClass [Zero V] {R : Type} (N : Numerics G F V) (rd : Reader R F V) (own : R → Rv G V)
    (bubble : Keldysh.Ch) (left : Bool) (spin : Nat) (this cross : R) (k : KC) : Buf G V :=
  let grid := if spin = 0 then (own this (gridClass k)).grid else (own cross (gridClass k)).grid
  { grid := grid
    data := fun s iK iIn pt =>
      if s = 0 ∧ N.inside grid k pt then
        rd k this cross ⟨Keldysh.rotate bubble left iK, spin, iIn, N.freq grid k pt⟩
      else 0 }

/-- `fullvert::symmetry_expand`, vertex.hpp:2157-2163. The irreducible part keeps its components and changes sign for
the other spin. It is read with spin 0 afterwards; `irreducible::val` (vertex.hpp:1183-1220) returns the negative for
spin 1 and zero for spin 2. -/
def expandFull [AddGroup V] {R : Type} (N : Numerics G F V) (rd : Reader R F V) (own : R → Rv G V)
    (bubble : Keldysh.Ch) (left : Bool) (spin : Nat) (bare : Nat → Nat → V) (Γ : Full R V) : Full (Rv G V) V :=
  let b := fun iK iIn => if spin = 0 then bare iK iIn else -bare iK iIn
  { irred := fun iK iIn s => if s = 0 then b iK iIn else if s = 1 then -b iK iIn else 0
    a := expandClass N rd own bubble left spin Γ.a Γ.t
    p := expandClass N rd own bubble left spin Γ.p Γ.p
    t := expandClass N rd own bubble left spin Γ.t Γ.a }

/-- `dataBuffer::operator+=`: the entries are added, the grid of the left operand stays. -/
def Buf.plus [Add V] (x y : Buf G V) : Buf G V :=
  { grid := x.grid, data := fun s iK iIn pt => x.data s iK iIn pt + y.data s iK iIn pt }

/-- The third member of `vertices_bubbleintegrand`, vertex.hpp:805-823: a copy of the first, with the irreducible part
multiplied by zero and the buffers of the second added, class by class as far as the build has them. -/
def addSpins [AddGroup V] (maxDiag : Nat) (Γ₀ Γ₁ : Full (Rv G V) V) : Full (Rv G V) V :=
  let add (x y : Rv G V) : Rv G V := fun k =>
    match k with
    | .k1 => (x .k1).plus (y .k1)
    | .k2 => if maxDiag > 1 then (x .k2).plus (y .k2) else x .k2
    | .k2b => if maxDiag > 1 then (x .k2b).plus (y .k2b) else x .k2b
    | .k3 => if maxDiag > 2 then (x .k3).plus (y .k3) else x .k3
  { irred := fun _ _ _ => 0, a := add Γ₀.a Γ₁.a, p := add Γ₀.p Γ₁.p, t := add Γ₀.t Γ₁.t }

/-- `GeneralVertex::symmetry_expand_impl`, vertex.hpp:794-824: the two spin components and their sum. -/
def expandImpl [AddGroup V] {R : Type} (maxDiag : Nat) (N : Numerics G F V) (rd : Reader R F V) (own : R → Rv G V)
    (bubble : Keldysh.Ch) (left : Bool) (bare : Nat → Nat → V) (Γ : Full R V) : List (Full (Rv G V) V) :=
  let Γ₀ := expandFull N rd own bubble left 0 bare Γ
  let Γ₁ := expandFull N rd own bubble left 1 bare Γ
  [Γ₀, Γ₁, addSpins maxDiag Γ₀ Γ₁]

/-- Which parts were declared vanishing, vertex.hpp:1061-1076: the bare part and, for a channel, a class. -/
structure Vanishing where
  bare : Bool
  part : Ch → KC → Bool

/-- `rvert::set_K_symmetryexpanded_to_zero`, r_vertex.hpp: all entries become zero, the grid stays. -/
def zeroBuf [Zero V] (x : Buf G V) : Buf G V := { grid := x.grid, data := fun _ _ _ _ => 0 }

/-- The loop of `GeneralVertex::symmetry_expand`, vertex.hpp:1100-1107, for one member. -/
def vanish [AddGroup V] (z : Vanishing) (Γ : Full (Rv G V) V) : Full (Rv G V) V :=
  let f (r : Ch) (x : Rv G V) : Rv G V := fun k => if z.part r k then zeroBuf (x k) else x k
  { irred := fun iK iIn s => if z.bare then 0 else Γ.irred iK iIn s
    a := f .a Γ.a, p := f .p Γ.p, t := f .t Γ.t }

/-- `swap_vanishing_component_channel_a_and_t`, vertex.hpp:1071-1073. -/
def Vanishing.swap (z : Vanishing) : Vanishing :=
  { z with part := fun r k => match r with | .a => z.part .t k | .t => z.part .a k | .p => z.part .p k }

/-- `GeneralVertex::symmetry_expand`, vertex.hpp:1077-1109. -/
def prepare [AddGroup V] {R : Type} (maxDiag : Nat) (N : Numerics G F V) (rd : Reader R F V) (own : R → Rv G V)
    (bubble : Keldysh.Ch) (left : Bool) (bare : Nat → Nat → V) (z : Vanishing) (Γ : Full R V) :
    List (Full (Rv G V) V) :=
  (expandImpl maxDiag N rd own bubble left bare Γ).map (vanish z)

end

/-- Kinds of vertices, data_structures.hpp: `vertexType`. -/
inductive Kind
  | full | irreducible | diffLeft | diffRight
  deriving DecidableEq, Repr

/-- The flag `r_irred` with which the parts of an expanded vertex are read, vertex.hpp:946-979. -/
def partsIrreducible (s : Kind) : Bool := s == .irreducible

/-- The flag `only_channel_r` with which the parts of an expanded vertex are read, vertex.hpp:968-979. -/
def partsOwn (s : Kind) : Bool := s == .diffLeft || s == .diffRight

/-- The flag `r_irred` with which the whole expanded vertex is read, vertex.hpp:934-944. -/
def valueIrreducible (s : Kind) : Bool := !(s == .full)

section
variable {G F V : Type} [AddCommGroup V]

/-- `GeneralVertex::value_symmetry_expanded<spin>`, vertex.hpp:934-939, through `fullvert::value_symmetry_expanded`
(vertex.hpp:1586-1608): `assert(input.spin == 0)`, `assert(spin < size)`. -/
def valueOf (cf : Conf F) (N : Numerics G F V) (s : Kind) (E : List (Full (Rv G V) V)) (spin : Nat) (b : Ch)
    (x : Input F) : Res V :=
  if x.spin = 0 then
    match E[spin]? with
    | some Γ => .ok (Vertex.value cf (readExpanded N) Γ b (valueIrreducible s) x)
    | none => .error .assertion
  else .error .assertion

/-- The four parts of a vertex which enter a bubble. -/
inductive Part
  | leftSame | rightSame | leftDiff | rightDiff
  deriving DecidableEq, Repr

/-- A part of a `fullvert`, vertex.hpp:1325-1565 or, expanded, 1610-1759. -/
def part {R : Type} (cf : Conf F) (rd : Reader R F V) (Γ : Full R V) (b : Ch) (rIrred onlyR : Bool) (x : Input F) :
    Part → Res V
  | .leftSame => Vertex.leftSame cf rd Γ b rIrred x
  | .rightSame => Vertex.rightSame cf rd Γ b rIrred x
  | .leftDiff => Vertex.leftDiff cf rd Γ b rIrred onlyR x
  | .rightDiff => Vertex.rightDiff cf rd Γ b rIrred onlyR x

/-- `GeneralVertex::left_same_bare_symmetry_expanded<spin>` and the other three, vertex.hpp:946-979. -/
def partOf (cf : Conf F) (N : Numerics G F V) (s : Kind) (E : List (Full (Rv G V) V)) (spin : Nat) (b : Ch)
    (x : Input F) (q : Part) : Res V :=
  if x.spin = 0 then
    match E[spin]? with
    | some Γ => part cf (readExpanded N) Γ b (partsIrreducible s) (partsOwn s) x q
    | none => .error .assertion
  else .error .assertion

end

end Verif.Expand
