import Verif.Reduce.Model
import Verif.Freqs.Spec

/-! What the bubble computation is to deliver: the values of a vertex with the physical symmetries. -/
namespace Verif.Reduce
open Verif.Symmetries
open Verif.Freqs (Ch Fr legs)

section
variable {K R : Type} [Field K] [LinearOrder K] [CommRing R] [StarRing R]

/-- The value that belongs into an entry: the vertex (`h = false`) or its mirror image (`h = true`) at the Keldysh
indices and leg energies of that entry. -/
def truth (V : Vertex K R) (h : Bool) (cls : Cls) (g : Grids K) (c : Ch) (k : Key) : R :=
  V.val h c k.spin (bits k.iK) (legFun (legs (.ch c) (keyFreq cls g k)))

/-- A class does not depend on the frequencies it does not have. -/
def Independent (V : Vertex K R) (cls : Cls) (c : Ch) : Prop :=
  match cls with
  | .k1 => ∀ h s α w v v' u u', V.val h c s α (legFun (legs (.ch c) ⟨w, v, v'⟩)) =
      V.val h c s α (legFun (legs (.ch c) ⟨w, u, u'⟩))
  | .k2 => ∀ s α w v v' u', V.val false c s α (legFun (legs (.ch c) ⟨w, v, v'⟩)) =
      V.val false c s α (legFun (legs (.ch c) ⟨w, v, u'⟩))
  | .k3 => True

/-- Components forbidden by causality vanish. -/
def Causal (V : Vertex K R) (cls : Cls) (c : Ch) : Prop :=
  ∀ h s, s < 2 → ∀ iK < 16, vanishes c cls.kclass iK = true → ∀ ν, V.val h c s (bits iK) ν = 0

end

end Verif.Reduce
