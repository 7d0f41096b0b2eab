import Verif.Heredity.Spec
import Verif.Pipeline.Spec
import Verif.Pipeline.PropsGrid

/-
The data of a bubble computation in terms of the vertices and propagators it is given:
/repo/source/bubble/integrand.hpp:1001-1017 (arguments of the vertices), /repo/source/bubble/bubble.hpp:199-220 (energies
of the propagators) and /repo/source/bubble/bubble_function.hpp:178-188, 421, 900-905 (integration and prefactor). The
quadrature is replaced by the exact integral over all frequencies, and the vertices are given by their values at leg
energies instead of by interpolation.
-/
namespace Verif.Heredity
open Verif.Symmetries Verif.Pipeline
open Verif.Freqs (Ch Fr legs)

/-- `convert_to_fermionic_frequencies_1`, bubble.hpp:199-209. -/
noncomputable def fermi1 (c : Ch) (vpp w : ℝ) : ℝ :=
  match c with
  | .p => vpp + w * (1/2)
  | _ => vpp - w * (1/2)

/-- `convert_to_fermionic_frequencies_2`, bubble.hpp:210-220. -/
noncomputable def fermi2 (c : Ch) (vpp w : ℝ) : ℝ :=
  match c with
  | .p => w * (1/2) - vpp
  | _ => vpp + w * (1/2)

/-- The input of the computation for the left vertex `L`, the right vertex `R`, the propagator `G` and the single-scale
propagator `S`. -/
noncomputable def input (cls : Cls) (g : Grids ℝ) (c : Ch) (L R : Vertex ℝ ℂ) (G S : ℝ → Keldysh.Prop2 ℂ)
    (diff : Bool) : Input ℝ ℂ where
  left k x s iK := L.val false c s (bits iK) (legFun (legs (.ch c) { keyFreq cls g k with v2 := x }))
  right k x s iK := R.val true c s (bits iK) (legFun (legs (.ch c) { keyFreq cls g k with v1 := x }))
  g1 k x := G (fermi1 c x (keyFreq cls g k).w)
  g2 k x := G (fermi2 c x (keyFreq cls g k).w)
  s1 k x := S (fermi1 c x (keyFreq cls g k).w)
  s2 k x := S (fermi2 c x (keyFreq cls g k).w)
  diff := diff
  integrate _ F := pref c * ∫ x : ℝ, F x

/-- Component of a propagator. -/
def comp (g : Keldysh.Prop2 ℂ) (a b : Bool) : ℂ :=
  match a, b with
  | false, false => 0
  | false, true => star g.gr
  | true, false => g.gr
  | true, true => g.gk

/-- The pair of propagators, by the Keldysh indices of the ends. -/
def pairOf (G S : ℝ → Keldysh.Prop2 ℂ) (diff : Bool) : Pair := fun a b c d y z =>
  if diff then comp (G y) a c * comp (S z) b d + comp (S y) a c * comp (G z) b d
  else comp (G y) a c * comp (G z) b d

end Verif.Heredity
