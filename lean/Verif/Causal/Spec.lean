import Verif.Heredity.PropsLines
import Verif.Thermal.Spec
import Verif.Fdt.Checks

/-
Causality of a self-energy. The retarded component is the boundary value of a bounded holomorphic function on the upper
half-plane whose imaginary part is nowhere positive (`RetardedSE`): the response comes after its cause, and the spectral
function of the propagator is nowhere negative.
-/
namespace Verif.Causal
open Verif.Heredity Verif.Invariant

/-- A self-energy that is causal and in thermal equilibrium. -/
structure Causal (T mu : ℝ) (σ : SF) : Prop where
  retarded : RetardedSE σ.1
  thermal : Thermal.ThermalS T mu σ

/-- What the causality check of the code reads: the imaginary parts of the retarded component on a grid of frequencies. -/
noncomputable def stored (σ : SF) (grid : List ℝ) : List Fdt.Dbl := grid.map fun v => some (σ.1 v).im

end Verif.Causal
