import Verif.Keldysh.Model
import Mathlib.Algebra.BigOperators.Group.Finset.Basic
import Mathlib.Data.Fintype.BigOperators
import Mathlib.Algebra.Ring.Defs

/-
Specification of the composition of vertices without propagators: the internal legs of the channel are summed over.
A Keldysh component is the number `pack a b c d` of the indices of the legs `1', 2', 1, 2`.
-/
namespace Verif.Sbe

open Keldysh

variable {Q : Type} [CommRing Q]

/-- `A` and `B` joined along the two internal legs of the channel. -/
def chain (ch : Ch) (A B : Nat → Q) (a b c d : Fin 2) : Q :=
  ∑ y : Fin 2, ∑ z : Fin 2,
    match ch with
    | .a => A (pack a z y d) * B (pack y b c z)
    | .p => A (pack a b y z) * B (pack y z c d)
    | .t => A (pack z b y d) * B (pack a y c z)

end Verif.Sbe
