import Verif.Invariant.Model

/-! The quantities in which the size of the corrections to the bare state is expressed. -/
namespace Verif.Weak
open Verif.Invariant
open Verif.Freqs (Ch)

/-- The transfer frequency of a channel, its sign aside. -/
def transfer (c : Ch) (ν : Fin 4 → ℝ) : ℝ :=
  match c with
  | .a => ν 3 - ν 0
  | .p => ν 0 + ν 1
  | .t => ν 3 - ν 1

/-- Both components of the self-energies `σ` and `σ'` differ by at most `b`, at every frequency. -/
def NearS (b : ℝ) (σ σ' : SF) : Prop := ∀ v, ‖σ.1 v - σ'.1 v‖ ≤ b ∧ ‖σ.2 v - σ'.2 v‖ ≤ b

/-- Every component of the vertex is at most `b`. -/
def SmallV (b : ℝ) (V : VF) : Prop := ∀ h c s α ν, ‖V h c s α ν‖ ≤ b

end Verif.Weak
