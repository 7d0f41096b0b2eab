import Verif.Check.Model
import Verif.Freqs.Spec
import Verif.Reduce.Spec

/-! What the symmetry check is to find: whether a vertex has the physical symmetries. -/
namespace Verif.Check
open Verif.Symmetries
open Verif.Freqs (Ch Fr legs)

section
variable {K R : Type} [Field K] [LinearOrder K] [CommRing R] [StarRing R]

/-- The entries of the buffer of a class. -/
def Valid (k : KClass) (g : Grids K) (n : Key) : Prop :=
  n.spin < 2 ∧ n.iw < g.nw ∧ n.iK < 16 ∧
  match k with
  | .k1 => n.iv = 0 ∧ n.ivp = 0
  | .k2 => n.iv < g.nv ∧ n.ivp = 0
  | .k2b => n.iv = 0 ∧ n.ivp < g.nv
  | .k3 => n.iv < g.nv ∧ n.ivp < g.nv

/-- The physical content of a vertex: one function of the legs for each class. Class `K2b` is the mirror image of
class `K2`. -/
structure Physical (K R : Type) where
  k1 : Vertex K R
  k2 : Vertex K R
  k3 : Vertex K R

/-- The value of a class. -/
def Physical.val (P : Physical K R) (k : KClass) (c : Ch) (s iK : Nat) (f : Fr K) : R :=
  match k with
  | .k1 => P.k1.val false c s (bits iK) (legFun (legs (.ch c) f))
  | .k2 => P.k2.val false c s (bits iK) (legFun (legs (.ch c) f))
  | .k2b => P.k2.val true c s (bits iK) (legFun (legs (.ch c) f))
  | .k3 => P.k3.val false c s (bits iK) (legFun (legs (.ch c) f))

/-- Crossing, conjugation, particle-hole and time-reversal symmetry of all classes; `K1` and `K3` agree with their
mirror images; no class depends on frequencies it does not have. -/
structure Physical.Symmetric (cfg : Cfg) (P : Physical K R) : Prop where
  sym1 : Sym cfg P.k1
  sym2 : Sym cfg P.k2
  sym3 : Sym cfg P.k3
  mir1 : ∀ c s α ν, P.k1.val true c s α ν = P.k1.val false c s α ν
  mir3 : ∀ c s α ν, P.k3.val true c s α ν = P.k3.val false c s α ν
  ind1 : ∀ c s iK w v v' u u', P.val .k1 c s iK ⟨w, v, v'⟩ = P.val .k1 c s iK ⟨w, u, u'⟩
  ind2 : ∀ c s iK w v v' u', P.val .k2 c s iK ⟨w, v, v'⟩ = P.val .k2 c s iK ⟨w, v, u'⟩
  ind2b : ∀ c s iK w v v' u, P.val .k2b c s iK ⟨w, v, v'⟩ = P.val .k2b c s iK ⟨w, u, v'⟩

/-- A stored vertex contains the values of a physical one. -/
def Stores (P : Physical K R) (v : Vtx K R) : Prop :=
  ∀ c k n, Valid k (v c k).grid n → (v c k).data n = P.val k c n.spin n.iK (freq k (v c k).grid n)

/-- Keldysh index after an exchange of legs. -/
def permK (π : Equiv.Perm (Fin 4)) (iK : Nat) : Nat := ofBits (bits iK ∘ π)

/-- Position of the opposite frequency on a symmetric grid. -/
def rev (n i : Nat) : Nat := n - 1 - i

end

end Verif.Check
