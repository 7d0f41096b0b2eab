import Verif.Skip.Model
import Mathlib.MeasureTheory.Integral.IntervalIntegral.Basic

/-
Specification: vertices of first class and what has to vanish.
-/
namespace Verif.Skip

open Keldysh

/-- The external Keldysh components of the first class that are computed. -/
def external : Ch → List Nat
  | .a => [1, 3]
  | .p => [1, 5]
  | .t => [1, 3]

/-- A vertex of the same class as a bare vertex: each of the two pairs of legs meets in a point, so that a component
depends only on whether the pair has an odd number of second Keldysh indices, and vanishes if neither has. -/
def SameClass (ch : Ch) (X : Nat → ℂ) : Prop :=
  ∃ f : Bool → Bool → ℂ, f false false = 0 ∧
    ∀ i < 16, X i = f (decide ((leftRight ch i).1 = 1 ∨ (leftRight ch i).1 = 2))
      (decide ((leftRight ch i).2 = 1 ∨ (leftRight ch i).2 = 2))

/-- A bare vertex: nonzero for an odd number of second Keldysh indices, with one value. -/
def bareVertex (u : ℂ) (i : Nat) : ℂ := if i ∈ Symmetries.oddKeldysh then u else 0

/-- The frequencies of the two propagators of a bubble. -/
noncomputable def freqs : Ch → ℝ → ℝ → ℝ × ℝ
  | .p, w, v => (w / 2 + v, w / 2 - v)
  | _, w, v => (v - w / 2, v + w / 2)

/-- The contraction of all internal components at a frequency. -/
noncomputable def contraction (ch : Ch) (L R : Nat → ℂ) (g : ℝ → Prop2 ℂ) (w : ℝ) (i0 : Nat) (v : ℝ) : ℂ :=
  ((List.range 16).map fun i2 => L (indicesSum ch i0 i2).1 * value (g (freqs ch w v).1) (g (freqs ch w v).2) i2 *
    R (indicesSum ch i0 i2).2).sum

/-- What the code sums. -/
noncomputable def computed (ch : Ch) (L R : Nat → ℂ) (g : ℝ → Prop2 ℂ) (w : ℝ) (i0 : Nat) (v : ℝ) : ℂ :=
  (nonZeroBubble.map fun i2 => summand ch false L R (value (g (freqs ch w v).1) (g (freqs ch w v).2)) i0 i2).sum

/-- Causality: the retarded propagator is analytic in the upper half plane and falls off, so that a product of two
propagators with all poles on one side integrates to zero. -/
def Causal (g : ℝ → Prop2 ℂ) : Prop :=
  Continuous (fun v => (g v).gr) ∧
  (∀ w, Filter.Tendsto (fun l : ℝ => ∫ v in (-l)..l, (g (v - w / 2)).gr * (g (v + w / 2)).gr) Filter.atTop (nhds 0)) ∧
  (∀ w, Filter.Tendsto (fun l : ℝ => ∫ v in (-l)..l, (g (w / 2 + v)).gr * star (g (w / 2 - v)).gr) Filter.atTop (nhds 0))

end Verif.Skip
