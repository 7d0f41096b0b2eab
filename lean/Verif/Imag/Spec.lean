import Verif.Symmetries.Spec
import Mathlib.Data.Fintype.BigOperators
import Mathlib.Data.Int.Interval
import Mathlib.Algebra.Order.Group.Int

/-! The bubble diagram at imaginary frequencies as a function of its external legs: two vertices connected by a pair of
propagators, summed over the spins of the connecting lines and over their frequency. A leg carries a spin and an energy;
energies are elements of a ring `K` (integers in units of `π T`, or real numbers at zero temperature), values are
elements of a ring `R` with conjugation. -/
namespace Verif.Imag
open Verif.Symmetries
open Verif.Freqs (Ch)

section
variable {K R : Type} [CommRing K] [CommRing R] [StarRing R]

/-- A leg. -/
structure Leg (K : Type) where
  s : Bool
  e : K

/-- The leg with opposite energy. -/
def Leg.neg (l : Leg K) : Leg K := ⟨l.s, -l.e⟩

/-- The leg with opposite spin. -/
def Leg.flip (l : Leg K) : Leg K := ⟨!l.s, l.e⟩

/-- The only Keldysh index. -/
def k0 : Fin 4 → Bool := fun _ => false

/-- A spin-conserving vertex on legs: component 0 for spins passing straight, component 1 for spins passing crosswise.
`h = false`: as left vertex of a bubble in channel `c`, `h = true`: as right vertex. -/
def legVal (T : Vertex K R) (h : Bool) (c : Ch) (o1 o2 i1 i2 : Leg K) : R :=
  (if o1.s = i1.s ∧ o2.s = i2.s then T.val h c 0 k0 ![o1.e, o2.e, i1.e, i2.e] else 0) +
  (if o1.s = i2.s ∧ o2.s = i1.s then T.val h c 1 k0 ![o1.e, o2.e, i1.e, i2.e] else 0)

/-- One term of the diagram with left vertex `L` and right vertex `R'`: the line `y` with spin `u` runs from the right to
the left vertex; `z` with spin `v` runs back (channels `a`, `t`) or along `y` (channel `p`). In channel `p` the spins of
the lines are those of the incoming legs. -/
def term (L R' : Vertex K R) (P : K → K → R) (c : Ch) (o1 o2 i1 i2 : Leg K) (y z : K) (u v : Bool) : R :=
  match c with
  | .a => legVal L false .a o1 ⟨v, z⟩ ⟨u, y⟩ i2 * P y z * legVal R' true .a ⟨u, y⟩ o2 i1 ⟨v, z⟩
  | .p => if u = i1.s ∧ v = i2.s then
      legVal L false .p o1 o2 ⟨u, y⟩ ⟨v, z⟩ * P y z * legVal R' true .p ⟨u, y⟩ ⟨v, z⟩ i1 i2 else 0
  | .t => legVal L false .t ⟨v, z⟩ o2 ⟨u, y⟩ i2 * P y z * legVal R' true .t o1 ⟨u, y⟩ i1 ⟨v, z⟩

/-- The summand: sum over the spins of the lines. -/
def inner (L R' : Vertex K R) (P : K → K → R) (c : Ch) (o1 o2 i1 i2 : Leg K) (y z : K) : R :=
  ∑ q : Bool × Bool, term L R' P c o1 o2 i1 i2 y z q.1 q.2

/-- The energy transferred through the bubble: difference of the energies of the lines `z` and `y`, in channel `p` their
sum. -/
def transfer (c : Ch) (ν : Fin 4 → K) : K :=
  match c with
  | .a => ν 3 - ν 0
  | .p => ν 0 + ν 1
  | .t => ν 3 - ν 1

/-- Summation over the frequencies of the lines, for a channel and a transferred energy. -/
abbrev Total (K R : Type) : Type := Ch → K → (K → K → R) → R

/-- Sign of the bubble: the closed loop of channel `t`. -/
def loopSign : Ch → R
  | .t => -1
  | _ => 1

/-- The bubble of two vertices, and its mirror image. It vanishes unless energy is conserved. -/
def bubble [DecidableEq K] (S : Total K R) (L R' : Vertex K R) (P : K → K → R) : Vertex K R where
  val h c s _ ν :=
    if ν 0 + ν 1 = ν 2 + ν 3 then
      loopSign c * S c (transfer c ν) (inner (if h then R' else L) (if h then L else R') P c
        ⟨true, ν 0⟩ ⟨false, ν 1⟩ ⟨s == 0, ν 2⟩ ⟨s != 0, ν 3⟩)
    else 0

/-- A summation over frequencies which treats the two lines alike, contains with every pair of energies also the pair of
opposite energies, and commutes with conjugation and change of sign. -/
structure GoodTotal (S : Total K R) : Prop where
  channels : ∀ w f, S .a w f = S .t w f
  exchange : ∀ w f, S .a w f = S .a (-w) fun y z => f z y
  parallel : ∀ w f, S .p w f = S .p w fun y z => f z y
  reverse : ∀ c w f, S c w f = S c (-w) fun y z => f (-y) (-z)
  conj : ∀ c w f, star (S c w f) = S c w fun y z => star (f y z)
  minus : ∀ c w f, (S c w fun y z => -f y z) = -S c w f

/-- A pair of propagators in which the two lines are equivalent and conjugation changes the sign of the energies. -/
structure GoodPair (P : K → K → R) : Prop where
  swap : ∀ y z, P y z = P z y
  conj : ∀ y z, star (P y z) = P (-y) (-z)

end

/-! ### Summations -/

/-- The energies of the line `y` at finite temperature that are summed for the transferred energy `w`: odd integers such
that `y` and its partner are not both above `2 N - 1` or both below `-(2 N - 1)`; in channel `p` the partner runs in the
opposite direction. -/
noncomputable def window (N : Nat) (c : Ch) (w : ℤ) : Finset ℤ :=
  (Finset.Icc (-(2 * N + (w.natAbs : ℤ))) (2 * N + (w.natAbs : ℤ))).filter fun y =>
    let z := if c = .p then y - w else y + w
    y % 2 = 1 ∧ z % 2 = 1 ∧ ¬ (y > 2 * N - 1 ∧ z > 2 * N - 1) ∧ ¬ (y < -(2 * N - 1) ∧ z < -(2 * N - 1))

/-- The energy of the other line. -/
def partner {K : Type} [CommRing K] (c : Ch) (w y : K) : K :=
  match c with
  | .p => w - y
  | _ => y + w

/-- Finite sum over Matsubara frequencies. -/
noncomputable def finiteTotal {R : Type} [CommRing R] (N : Nat) : Total ℤ R := fun c w f =>
  ∑ y ∈ window N c w, f y (partner c w y)

end Verif.Imag
