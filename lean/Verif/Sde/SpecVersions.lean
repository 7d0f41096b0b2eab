import Verif.Sde.ModelImag
import Mathlib.Analysis.RCLike.Basic

/-! What is needed to compare the versions of the Schwinger–Dyson equation. -/
namespace Verif.Sde.Imag
open Verif.ImagFlow

/-- The bare vertex: the interaction for spins passing straight and its opposite for spins passing crosswise, the same for
all frequencies, /repo/source/correlation_functions/four_point/vertex.hpp:1183-1197, 1236-1259. -/
def bareU {R : Type} [CommRing R] (w : R) : VF R := fun _ _ s _ _ => if s = 0 then w else -w

/-- The same computation with `POSINTRANGE` equal to `N`. -/
def withPos {R : Type} (u : Setup R) (N : Nat) : Setup R := { u with core := { u.core with pos := N } }

/-- A propagator that decays like the inverse frequency. -/
def Decays {𝕜 : Type} [RCLike 𝕜] (G : ℤ → 𝕜) : Prop := ∃ C : ℝ, ∀ n : ℤ, ‖G (2 * n + 1)‖ ≤ C / |((2 * n + 1 : ℤ) : ℝ)|

/-- A vertex without divergences. -/
def Bounded {𝕜 : Type} [RCLike 𝕜] (V : VF 𝕜) : Prop := ∃ B : ℝ, ∀ h c s α ν, ‖V h c s α ν‖ ≤ B

end Verif.Sde.Imag
