import Verif.Pipeline.Model
import Verif.SpinSum.Spec

/-! What one class of a bubble is: two vertices connected by a pair of propagators, summed over the spins and Keldysh
indices of the connecting lines and integrated over their frequency. -/
namespace Verif.Pipeline
open Verif.Symmetries
open Verif.Freqs (Ch)

section
variable {R X : Type} [CommRing R] [StarRing R]

/-- Sum over the Keldysh indices of the connecting lines, for given values of the vertices. -/
def keldyshSum (c : Ch) (L M : Nat → R) (P : Nat → R) (iK : Nat) : R :=
  ∑ i2 ∈ Finset.range 16, L (Keldysh.indicesSum (kch c) iK i2).1 * P i2 * M (Keldysh.indicesSum (kch c) iK i2).2

/-- The vertex with the given spins of its legs, whose direct and exchange part are the components 0 and 1. -/
def spins (Γ : Nat → Nat → R) (s1' s2' s1 s2 : Bool) : Nat → R :=
  fun k => (⟨Γ 0 k, Γ 1 k⟩ : SpinSum.Vert R).at s1' s2' s1 s2

/-- Sum over the spins of the connecting lines. In the channels `a` and `t` over both; in channel `p` the two
assignments of the spins to the lines give the same, and one of them is taken. -/
def bubbleSum (c : Ch) (spin : Nat) (L M : Nat → Nat → R) (P : Nat → R) (iK : Nat) : R :=
  let s1 := spin == 0
  let s2 := spin != 0
  match c with
  | .a => ∑ y : Bool, ∑ z : Bool, keldyshSum c (spins L true z y s2) (spins M y false s1 z) P iK
  | .p => keldyshSum c (L spin) (M 0) P iK
  | .t => ∑ y : Bool, ∑ z : Bool, keldyshSum c (spins L z false y s2) (spins M true y s1 z) P iK

/-- Values of the propagator pair by Keldysh index. -/
def Input.pairValue (I : Input X R) (k : Key) (x : X) : Nat → R :=
  if I.diff then Keldysh.valueDiff (I.g1 k x) (I.g2 k x) (I.s1 k x) (I.s2 k x)
  else Keldysh.value (I.g1 k x) (I.g2 k x)

/-- The diagram for an entry. -/
def Input.diagram (I : Input X R) (c : Ch) (k : Key) : R :=
  let k0 : Key := { k with iK := 0 }
  I.integrate k0 fun x => bubbleSum c k.spin (I.left k0 x) (I.right k0 x) (I.pairValue k0 x) k.iK

end

end Verif.Pipeline
