import Verif.ImagFlow.Model

/-
`PT2_FLOW` and second-order perturbation theory at imaginary frequencies and finite temperature, with the simplifications of
Verif.ImagFlow.
-/
namespace Verif.Pt2.Mats
open Verif.ImagFlow
variable {R : Type} [CommRing R] [StarRing R] [Algebra ℝ R]

/-- The self-energy with which the propagators of the flow are initialized, /repo/source/mfRG_flow/right_hand_sides.hpp:200-201:
`asymp_val_R = config.U / 2`, whatever is stored (selfenergy.hpp:159-163, 207-224). -/
noncomputable def bareSE (U : ℝ) : SF R := fun _ => algebraMap ℝ R (U / 2)

/-- The self-energy of a bare state, /repo/source/correlation_functions/state.hpp:148-163: with `PARTICLE_HOLE_SYMM` only the
imaginary part is stored, which vanishes. -/
noncomputable def stateSE (ph : Bool) (U : ℝ) : SF R := if ph then 0 else bareSE U

/-- `vertexInSOPT`, perturbation_theory.hpp:34-48, called with the propagator of a bare state, lines 122-153. -/
noncomputable def vertex2 (u : Setup R) (U Λ : ℝ) (bare : VF R) : VF R := bub u bare bare (pair u Λ (stateSE u.ph U))

/-- `vertexOneLoopFlow` with `PT2_FLOW`, right_hand_sides.hpp:242-245, 230-245: propagators with `bareSelfEnergy`, vertices of
a bare state. -/
noncomputable def flow2 (u : Setup R) (U Λ : ℝ) (bare : VF R) : VF R := bub u bare bare (dpair u Λ (bareSE U) 0)

end Verif.Pt2.Mats
