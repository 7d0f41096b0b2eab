import Verif.Symmetries.Spec
import Mathlib.MeasureTheory.Integral.Bochner.Basic
import Mathlib.MeasureTheory.Measure.Lebesgue.Basic
import Mathlib.Data.Fintype.BigOperators
import Mathlib.Analysis.Real.Pi.Bounds

/-! The bubble diagram as a function of its external legs: two vertices connected by a pair of propagators, summed over
spin and Keldysh indices of the connecting lines and integrated over their frequency. A leg carries a spin, a Keldysh
index and an energy. -/
namespace Verif.Heredity
open Verif.Symmetries
open Verif.Freqs (Ch)

/-- A leg. -/
structure Leg where
  s : Bool
  k : Bool
  e : ℝ

/-- The leg with opposite energy. -/
def Leg.neg (l : Leg) : Leg := ⟨l.s, l.k, -l.e⟩

/-- The leg with opposite spin. -/
def Leg.flip (l : Leg) : Leg := ⟨!l.s, l.k, l.e⟩

/-- A spin-conserving vertex on legs: component 0 for spins passing straight, component 1 for spins passing crosswise.
`h = false`: as left vertex of a bubble in channel `c`, `h = true`: as right vertex. -/
def legVal (T : Vertex ℝ ℂ) (h : Bool) (c : Ch) (o1 o2 i1 i2 : Leg) : ℂ :=
  (if o1.s = i1.s ∧ o2.s = i2.s then T.val h c 0 ![o1.k, o2.k, i1.k, i2.k] ![o1.e, o2.e, i1.e, i2.e] else 0) +
  (if o1.s = i2.s ∧ o2.s = i1.s then T.val h c 1 ![o1.k, o2.k, i1.k, i2.k] ![o1.e, o2.e, i1.e, i2.e] else 0)

/-- Labels of the connecting lines `y` and `z`: their spins and the Keldysh indices at their four ends (`y` at the left,
`z` at the left or right, `y` at the right, `z` at the other end; the order of `Bubble::value`). -/
structure Lines where
  u : Bool
  v : Bool
  y0 : Bool
  y1 : Bool
  y2 : Bool
  y3 : Bool
  deriving DecidableEq

/-- As a product of two-element types. -/
def Lines.equiv : Lines ≃ Bool × Bool × Bool × Bool × Bool × Bool where
  toFun q := (q.u, q.v, q.y0, q.y1, q.y2, q.y3)
  invFun q := ⟨q.1, q.2.1, q.2.2.1, q.2.2.2.1, q.2.2.2.2.1, q.2.2.2.2.2⟩
  left_inv _ := rfl
  right_inv _ := rfl

instance : Fintype Lines := Fintype.ofEquiv _ Lines.equiv.symm

/-- Value of a pair of propagators by the Keldysh indices of their ends and their energies. -/
abbrev Pair : Type := Bool → Bool → Bool → Bool → ℝ → ℝ → ℂ

/-- One term of the diagram with left vertex `L` and right vertex `R`: the line `y` runs from the right to the left
vertex; `z` runs back (channels `a`, `t`) or along `y` (channel `p`). In channel `p` the spins of the lines are those of
the incoming legs. -/
noncomputable def term (L R : Vertex ℝ ℂ) (P : Pair) (c : Ch) (o1 o2 i1 i2 : Leg) (y z : ℝ) (q : Lines) : ℂ :=
  match c with
  | .a => legVal L false .a o1 ⟨q.v, q.y3, z⟩ ⟨q.u, q.y0, y⟩ i2 * P q.y0 q.y1 q.y2 q.y3 y z *
      legVal R true .a ⟨q.u, q.y2, y⟩ o2 i1 ⟨q.v, q.y1, z⟩
  | .p => if q.u = i1.s ∧ q.v = i2.s then legVal L false .p o1 o2 ⟨q.u, q.y0, y⟩ ⟨q.v, q.y1, z⟩ *
      P q.y0 q.y1 q.y2 q.y3 y z * legVal R true .p ⟨q.u, q.y2, y⟩ ⟨q.v, q.y3, z⟩ i1 i2 else 0
  | .t => legVal L false .t ⟨q.v, q.y3, z⟩ o2 ⟨q.u, q.y0, y⟩ i2 * P q.y0 q.y1 q.y2 q.y3 y z *
      legVal R true .t o1 ⟨q.u, q.y2, y⟩ i1 ⟨q.v, q.y1, z⟩

/-- The integrand. -/
noncomputable def inner (L R : Vertex ℝ ℂ) (P : Pair) (c : Ch) (o1 o2 i1 i2 : Leg) (y z : ℝ) : ℂ :=
  ∑ q : Lines, term L R P c o1 o2 i1 i2 y z q

/-- Energies of the lines `y`, `z` at the integration frequency `x`. -/
noncomputable def lineE (c : Ch) (ν : Fin 4 → ℝ) (x : ℝ) : ℝ × ℝ :=
  match c with
  | .a => (x - (ν 3 - ν 0) / 2, x + (ν 3 - ν 0) / 2)
  | .p => (x + (ν 0 + ν 1) / 2, -x + (ν 0 + ν 1) / 2)
  | .t => (x - (ν 3 - ν 1) / 2, x + (ν 3 - ν 1) / 2)

/-- `bubble_value_prefactor`, /repo/source/bubble/bubble_function.hpp:178-188, 900-905. -/
noncomputable def pref (c : Ch) : ℂ := (match c with | .t => -1 | _ => 1) * (1 / (2 * Real.pi * Complex.I))

/-- The bubble of two vertices, and its mirror image. It vanishes unless energy is conserved. -/
noncomputable def bubble (L R : Vertex ℝ ℂ) (P : Pair) : Vertex ℝ ℂ where
  val h c s α ν :=
    if ν 0 + ν 1 = ν 2 + ν 3 then
      pref c * ∫ x : ℝ, inner (if h then R else L) (if h then L else R) P c ⟨true, α 0, ν 0⟩ ⟨false, α 1, ν 1⟩
        ⟨s == 0, α 2, ν 2⟩ ⟨s != 0, α 3, ν 3⟩ (lineE c ν x).1 (lineE c ν x).2
    else 0

/-- Sign of a Keldysh index. -/
def sg (b : Bool) : ℂ := if b then -1 else 1

/-- Properties of a pair of propagators: the two lines are equivalent, conjugation exchanges the ends, and with
particle-hole symmetry it corresponds to a change of sign of the energies. -/
structure GoodPair (ph : Bool) (P : Pair) : Prop where
  swap : ∀ a b c d y z, P a b c d y z = P b a d c z y
  conj : ∀ a b c d y z, star (P a b c d y z) = sg a * sg b * sg c * sg d * P c d a b y z
  ph : ph = true → ∀ a b c d y z, star (P a b c d y z) = sg a * sg b * sg c * sg d * P a b c d (-y) (-z)

end Verif.Heredity
