import Verif.Sde.Model

/-! What is needed to compare the versions of the Schwinger–Dyson equation at real frequencies. -/
namespace Verif.Sde.Limit
open Verif.Symmetries Verif.Heredity Verif.Invariant
open Verif.Freqs (Ch)

/-- Value of the bare vertex by its Keldysh indices. -/
noncomputable def beta (w : ℝ) (a b c d : Bool) : ℂ := if twos ![a, b, c, d] % 2 = 1 then (w : ℂ) else 0

/-- The bare vertex, /repo/source/correlation_functions/four_point/vertex.hpp:1183-1197, 1236-1259: the same value for every
odd component, opposite for spins passing crosswise. -/
noncomputable def bareK (w : ℝ) : VF := fun _ _ s α _ =>
  if s = 0 then beta w (α 0) (α 1) (α 2) (α 3) else -beta w (α 0) (α 1) (α 2) (α 3)

/-- A propagator that decays like the inverse frequency. -/
structure Decays (G : ℝ → Keldysh.Prop2 ℂ) : Prop where
  measR : Measurable fun x => (G x).gr
  measK : Measurable fun x => (G x).gk
  bound : ∃ C : ℝ, ∀ x, ‖(G x).gr‖ ≤ C / (1 + |x|) ∧ ‖(G x).gk‖ ≤ C / (1 + |x|)

/-- A measurable function without divergences. -/
structure Tame (g : (Fin 4 → Bool) → (Fin 4 → ℝ) → ℂ) : Prop where
  meas : ∀ α, Measurable (g α)
  bound : ∃ B : ℝ, ∀ α ν, ‖g α ν‖ ≤ B

/-- Vertices that a bubble can be computed of. -/
def TameV (Γ : VF) : Prop := ∀ h c s, s < 2 → Tame (Γ h c s)

/-- The same computation with another range of the loop integrals. -/
noncomputable def withRange (u : Setup) (Δ : ℝ) : Setup := { u with Δ := Δ }

end Verif.Sde.Limit
