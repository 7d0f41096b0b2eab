import Mathlib.Analysis.Complex.Trigonometric
import Mathlib.Analysis.SpecialFunctions.Exp
import Mathlib.Algebra.BigOperators.Fin
import Verif.Freqs.Model

/-
Thermal equilibrium of a function of four legs, stated on the two branches of the time contour.
-/
namespace Verif.Fdt
open Freqs (Ch)

/-- A function of four legs, each on the forward (`false`) or backward (`true`) branch. -/
abbrev Contour := Bool → Bool → Bool → Bool → ℂ

/-- The Boltzmann weight of a fermionic leg: `-exp(ν/T)` on the backward branch, one on the forward branch. -/
noncomputable def weight (T ν : ℝ) (b : Bool) : ℂ := if b then -((Real.exp (ν / T) : ℝ) : ℂ) else 1

/-- A function of four legs in thermal equilibrium: exchanging the branches of all legs gives, up to the Boltzmann
weights, minus the complex conjugate (Kubo-Martin-Schwinger condition), and the function vanishes when the latest time
is summed over both branches (causality).  The factor `-1` of every backward vertex is part of the function. -/
structure Thermal (T ν1 ν2 ν3 ν4 : ℝ) (V : Contour) : Prop where
  kms : ∀ a b c d, (starRingEnd ℂ) (V a b c d) =
    -(weight T ν1 a * weight T ν2 b * weight T ν3 c * weight T ν4 d) * V (!a) (!b) (!c) (!d)
  causal : ∑ a, ∑ b, ∑ c, ∑ d, V a b c d = 0

/-- Keldysh rotation of one leg: index 1 (binary digit 0) is the difference of the branches, index 2 (digit 1) their
sum. -/
def turn (digit : Nat) (b : Bool) : ℂ := if digit = 0 then (if b then -1 else 1) else 1

/-- The Keldysh component with number `iK = 8 i1' + 4 i2' + 2 i1 + i2`. -/
noncomputable def component (V : Contour) (iK : Nat) : ℂ :=
  1 / 4 * ∑ a, ∑ b, ∑ c, ∑ d,
    turn (iK / 8 % 2) a * turn (iK / 4 % 2) b * turn (iK / 2 % 2) c * turn (iK % 2) d * V a b c d

/-- Frequencies of the four legs in the three parametrisations, counted such that they add up to zero. -/
noncomputable def leg (ch : Ch) (w v vp : ℝ) : Fin 4 → ℝ :=
  match ch with
  | .a => ![v - w / 2, vp + w / 2, -vp + w / 2, -v - w / 2]
  | .p => ![v + w / 2, -v + w / 2, -vp - w / 2, vp - w / 2]
  | .t => ![vp + w / 2, v - w / 2, -vp + w / 2, -v - w / 2]

/-- Thermal equilibrium in the parametrisation of a channel. -/
def ThermalIn (ch : Ch) (T w v vp : ℝ) (V : Contour) : Prop :=
  Thermal T (leg ch w v vp 0) (leg ch w v vp 1) (leg ch w v vp 2) (leg ch w v vp 3) V

/-- The two legs on the right side of a diagram (with frequency `vp`) end at one bare vertex. -/
def RightMerged : Ch → Contour → Prop
  | .a, V => ∀ a b c d, b ≠ c → V a b c d = 0
  | .p, V => ∀ a b c d, c ≠ d → V a b c d = 0
  | .t, V => ∀ a b c d, a ≠ c → V a b c d = 0

/-- The two legs on the left side (with frequency `v`) end at one bare vertex. -/
def LeftMerged : Ch → Contour → Prop
  | .a, V => ∀ a b c d, a ≠ d → V a b c d = 0
  | .p, V => ∀ a b c d, a ≠ b → V a b c d = 0
  | .t, V => ∀ a b c d, b ≠ d → V a b c d = 0

/-- Exchanging the incoming and the outgoing legs together with complex conjugation; at vanishing transfer frequency of
the transverse channel the exchange does not change the frequencies. -/
def Hermitian (V : Contour) : Prop :=
  ∀ a b c d, (starRingEnd ℂ) (V a b c d) = -V (!c) (!d) (!a) (!b)

end Verif.Fdt
