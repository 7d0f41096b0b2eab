import Verif.Multiloop.Spec
import Verif.MfRG.Spec
import Mathlib.Analysis.Calculus.ContDiff.RCLike

/-!
A right-hand side of the flow for every scale Λ, at weak coupling. The propagator, and with it the bubbles, are given functions
of Λ (the self-energy is not part of the state here).
-/
namespace Verif.Family

open Keldysh (Ch)
open Multiloop (Known Chain)

variable {V P S : Type} [NormedAddCommGroup V] [NormedSpace ℝ V] [NormedAddCommGroup P] [NormedSpace ℝ P]
  [NormedAddCommGroup S] [NormedSpace ℝ S]

/-- The bubbles with the differentiated propagator that the right-hand side uses for the self-energy derivative `σ`. -/
noncomputable def dbubble (k : Known V P S) (σ : S) : Ch → V →L[ℝ] V →L[ℝ] V := k.dpi (k.katanin σ)

/-- For every scale in the open set `J` everything that enters the right-hand side: the fully irreducible part is the same for
all scales, the differentiated bubble is the continuous derivative of the bubble, chains of bubbles can be evaluated from
either end, and the product of interaction and bubble is at most one twelfth. -/
structure Scales (J : Set ℝ) (k : ℝ → Known V P S) (σ : ℝ → S) (bare : V) (u x : ℝ) : Prop where
  isOpen : IsOpen J
  irred : ∀ l ∈ J, (k l).bare = bare
  chain : ∀ l ∈ J, Chain (k l).pi (dbubble (k l) (σ l))
  deriv : ∀ l ∈ J, ∀ r, HasDerivAt (fun l => (k l).pi r) (dbubble (k l) (σ l) r) l
  cont : ∀ r, ContinuousOn (fun l => dbubble (k l) (σ l) r) J
  pos : 0 < u
  bare : ‖bare‖ ≤ u
  bubble : ∀ l ∈ J, ∀ r, ‖(k l).pi r‖ ≤ x
  weak : x * u ≤ 1 / 12

/-- The state the right-hand side is evaluated for. -/
def withState (k : Known V P S) (T : Ch → V) : Known V P S := { k with red := T }

/-- The vertex part of the right-hand side with `n` loops at the state `T`. -/
noncomputable def loops (E : MfRG.Eqs (Ch → V) S) (k : ℝ → Known V P S) (σ : ℝ → S) (n : ℕ) (T : Ch → V) (l : ℝ) : Ch → V :=
  MfRG.sumTo ((withState (k l) T).eqs E) (σ l) n

end Verif.Family
