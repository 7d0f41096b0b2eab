import Verif.Sde.SpecLimit
import Verif.Fdt.Spec

/-
Thermal equilibrium of propagators, self-energies and vertices. A propagator or self-energy is in equilibrium if its Keldysh
component follows from the retarded one by the fluctuation–dissipation relation. A vertex is in equilibrium if its components
on the two branches of the time contour satisfy the Kubo–Martin–Schwinger condition, as in Verif/Fdt/Spec.lean.
-/
namespace Verif.Thermal
open Verif.Fdt Verif.Heredity Verif.Symmetries Verif.Invariant Verif.Sde.Limit MeasureTheory
open Verif.Freqs (Ch)

/-- Keldysh rotation of one leg, by the index (`false` for 1, `true` for 2) and the branch. -/
def tn (k b : Bool) : ℂ := Fdt.turn k.toNat b

/-- Four legs. -/
abbrev K4 : Type := Bool × Bool × Bool × Bool

def kern (k b : K4) : ℂ := tn k.1 b.1 * tn k.2.1 b.2.1 * tn k.2.2.1 b.2.2.1 * tn k.2.2.2 b.2.2.2

/-- The contour components. -/
noncomputable def rot (F : K4 → ℂ) : K4 → ℂ := fun b => 1 / 4 * ∑ k : K4, kern k b * F k

/-- The weights of four legs. -/
noncomputable def wt (T : ℝ) (x : Fin 4 → ℝ) (b : K4) : ℂ :=
  weight T (x 0) b.1 * weight T (x 1) b.2.1 * weight T (x 2) b.2.2.1 * weight T (x 3) b.2.2.2

/-- All branches exchanged. -/
def flip (b : K4) : K4 := (!b.1, !b.2.1, !b.2.2.1, !b.2.2.2)

/-- The Kubo–Martin–Schwinger condition with sign `s` for a function of four legs with energies `x` counted such that
they add up to zero. -/
def Kms (s : ℂ) (T : ℝ) (x : Fin 4 → ℝ) (F : K4 → ℂ) : Prop := ∀ b, star (rot F b) = s * wt T x b * rot F (flip b)

/-- Two legs. -/
noncomputable def rot2 (g : Bool → Bool → ℂ) (b b' : Bool) : ℂ := 1 / 2 * ∑ k : Bool × Bool, tn k.1 b * tn k.2 b' * g k.1 k.2

/-- A propagator in thermal equilibrium. -/
def ThermalG (T mu : ℝ) (G : ℝ → Keldysh.Prop2 ℂ) : Prop :=
  ∀ v, (G v).gk = (Real.tanh ((v - mu) / (2 * T)) : ℝ) * ((G v).gr - star (G v).gr)

/-- The Keldysh components of a reducible vertex at given energies. -/
def comps (V : VF) (h : Bool) (c : Ch) (s : Nat) (ν : Fin 4 → ℝ) : K4 → ℂ := fun k => V h c s ![k.1, k.2.1, k.2.2.1, k.2.2.2] ν

/-- Energies counted from the chemical potential, outgoing legs positive. -/
def rel (mu : ℝ) (ν : Fin 4 → ℝ) : Fin 4 → ℝ := ![ν 0 - mu, ν 1 - mu, mu - ν 2, mu - ν 3]

/-- A vertex in thermal equilibrium. -/
def Equilibrium (T mu : ℝ) (V : VF) : Prop :=
  ∀ h c s, s < 2 → ∀ ν : Fin 4 → ℝ, ν 0 + ν 1 = ν 2 + ν 3 → Kms (-1) T (rel mu ν) (comps V h c s ν)

/-- A self-energy in thermal equilibrium. -/
def ThermalS (T mu : ℝ) (σ : SF) : Prop :=
  ∀ v, σ.2 v = (Real.tanh ((v - mu) / (2 * T)) : ℝ) * (σ.1 v - star (σ.1 v))

/-- A derivative of the self-energy that can be used in the extension of the propagator. -/
structure ReadyS (T mu : ℝ) (dσ : SF) : Prop where
  thermal : ThermalS T mu dσ
  meas : Measurable dσ.1
  bound : ∃ C : ℝ, ∀ v, ‖dσ.1 v‖ ≤ C

/-- The contour components as a function of the four branches. -/
noncomputable def branches (F : K4 → ℂ) : Contour := fun a b c d => rot F (a, b, c, d)

end Verif.Thermal
