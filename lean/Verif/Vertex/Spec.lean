import Verif.Vertex.Model
import Mathlib.Algebra.Ring.Defs

/-
What is claimed about evaluating vertices, stated without the functions of the code that split them.
-/
namespace Verif.Vertex

open Freqs (Ch Fr)

/-- The frequencies a diagrammatic class depends on: the bosonic one; with the left, the right or both
fermionic frequencies. -/
def dependsOn {F : Type} (k : KC) (x y : Fr F) : Prop :=
  x.w = y.w ∧
    match k with
    | .k1 => True
    | .k2 => x.v1 = y.v1
    | .k2b => x.v2 = y.v2
    | .k3 => x.v1 = y.v1 ∧ x.v2 = y.v2

/-- A way of reading the classes that respects their frequency dependence. -/
def Local {R F V : Type} (rd : Reader R F V) : Prop :=
  ∀ k this cross iK s i x y, dependsOn k x y → rd k this cross ⟨iK, s, i, x⟩ = rd k this cross ⟨iK, s, i, y⟩

/-- The complete two-particle reducible part in channel `c`, evaluated at its own frequencies: all classes
kept by the build. -/
def allClasses {R F V : Type} [AddCommGroup V] (maxDiag : Nat) (rd : Reader R F V) (this cross : R)
    (x : Input F) : V :=
  rd .k1 this cross x + (if 2 ≤ maxDiag then rd .k2 this cross x + rd .k2b this cross x else 0)
    + (if 3 ≤ maxDiag then rd .k3 this cross x else 0)

/-- The full vertex: bare part plus the reducible parts of the three channels, each at the same four
external legs. -/
def fullVertex {R F V : Type} [AddCommGroup V] (cf : Conf F) (rd : Reader R F V) (Γ : Full R V) (b : Ch)
    (x : Input F) : V :=
  Γ.irred x.iK x.iIn x.spin
    + allClasses cf.maxDiag rd Γ.a Γ.t ⟨x.iK, x.spin, x.iIn, cf.tr .a b x.f⟩
    + allClasses cf.maxDiag rd Γ.p Γ.p ⟨x.iK, x.spin, x.iIn, cf.tr .p b x.f⟩
    + allClasses cf.maxDiag rd Γ.t Γ.a ⟨x.iK, x.spin, x.iIn, cf.tr .t b x.f⟩

/-- The vertex irreducible in channel `b`. -/
def irreducibleVertex {R F V : Type} [AddCommGroup V] (cf : Conf F) (rd : Reader R F V) (Γ : Full R V)
    (b : Ch) (x : Input F) : V :=
  fullVertex cf rd Γ b x - allClasses cf.maxDiag rd (Γ.ch b) (Γ.crossing b) ⟨x.iK, x.spin, x.iIn, x.f⟩

/-- Number of second Keldysh indices among the four legs of component `iK = 8 i₁' + 4 i₂' + 2 i₁ + i₂`. -/
def secondIndices (iK : Nat) : Nat := iK / 8 % 2 + iK / 4 % 2 + iK / 2 % 2 + iK % 2

end Verif.Vertex
