import Verif.Symmetries.Model
import Mathlib.Algebra.Field.Basic
import Mathlib.Algebra.BigOperators.Fin
import Mathlib.Data.Fintype.Prod

/-! Component tables of the boson-exchange decomposition (`SBE_DECOMPOSITION 1`), where the class `K2` stores the
three-point vertices `λ̄` and the class `K2b` reads `λ`. -/
namespace Verif.Symmetries
open Verif.Freqs (Ch)

/-- `Components_Keldysh_a_channel` under `#if SBE_DECOMPOSITION`, symmetry_table.hpp:15-46, 68-75: the blocks of
`K1` and `K3` are those of the other decomposition. -/
def compsSbeA : List Int := [
  -1,  0,  0,  1,   0,  1, -1,  0,   0, -1,  1,  0,   1,  0,  0, -1,
  -1,  0,  0,  1,   0,  1, -1,  0,   0, -1,  1,  0,   1,  0,  0, -1,
   0,  1,  2,  3,   2,  3,  0,  1,   1,  4,  3, -1,   3, -1,  1,  4,
   0,  1,  2,  3,   2,  3,  0,  1,   1,  4,  3, -1,   3, -1,  1,  4,
   0,  2,  1,  3,   1,  3,  4, -1,   2,  0,  3,  1,   3,  1, -1,  4,
   0,  2,  1,  3,   1,  3,  4, -1,   2,  0,  3,  1,   3,  1, -1,  4,
   0,  1,  1,  2,   1,  3,  4,  5,   1,  4,  3,  5,   2,  5,  5, -1,
   0,  1,  1,  2,   1,  4,  3,  5,   1,  3,  4,  5,   2,  5,  5, -1]

/-- `Components_Keldysh_p_channel` under `#if SBE_DECOMPOSITION`, symmetry_table.hpp:80-110, 132-142. -/
def compsSbeP : List Int := [
  -1,  0,  0, -1,   0,  1,  1,  0,   0,  1,  1,  0,  -1,  0,  0, -1,
  -1,  0,  0, -1,   0,  1,  1,  0,   0,  1,  1,  0,  -1,  0,  0, -1,
   0,  1,  1,  0,   2,  3,  3,  2,   2,  3,  3,  2,   4, -1, -1,  4,
   0,  1,  1,  0,   2,  3,  3,  2,   2,  3,  3,  2,   4, -1, -1,  4,
   0,  2,  2,  4,   1,  3,  3, -1,   1,  3,  3, -1,   0,  2,  2,  4,
   0,  2,  2,  4,   1,  3,  3, -1,   1,  3,  3, -1,   0,  2,  2,  4,
   0,  1,  1,  2,   1,  3,  4,  5,   1,  4,  3,  5,   2,  5,  5, -1,
   0,  1,  1,  2,   1,  4,  3,  5,   1,  3,  4,  5,   2,  5,  5, -1]

/-- `Components_Keldysh_t_channel` under `#if SBE_DECOMPOSITION`, symmetry_table.hpp:145-176, 198-208. -/
def compsSbeT : List Int := [
  -1,  0,  0,  1,   0, -1,  1,  0,   0,  1, -1,  0,   1,  0,  0, -1,
  -1,  0,  0,  1,   0, -1,  1,  0,   0,  1, -1,  0,   1,  0,  0, -1,
   0,  1,  2,  3,   1,  4,  3, -1,   2,  3,  0,  1,   3, -1,  1,  4,
   0,  1,  2,  3,   1,  4,  3, -1,   2,  3,  0,  1,   3, -1,  1,  4,
   0,  2,  1,  3,   2,  0,  3,  1,   1,  3,  4, -1,   3,  1, -1,  4,
   0,  2,  1,  3,   2,  0,  3,  1,   1,  3,  4, -1,   3,  1, -1,  4,
   0,  1,  1,  2,   1,  3,  4,  5,   1,  4,  3,  5,   2,  5,  5, -1,
   0,  1,  1,  2,   1,  4,  3,  5,   1,  3,  4,  5,   2,  5,  5, -1]

/-- `Components(channel).K(k, spin, iK)` in this decomposition, symmetry_table.hpp:461-495. -/
def componentSbe (c : Ch) (k : KClass) (spin iK : Nat) : Option Int :=
  let t := match c with | .a => compsSbeA | .p => compsSbeP | .t => compsSbeT
  if spin < 2 ∧ iK < 16 then t[(k.idx * 2 + spin) * 16 + iK]? else none

/-- `non_zero_Keldysh_K2a`, `non_zero_Keldysh_K2p`, `non_zero_Keldysh_K2t` under `#if SBE_DECOMPOSITION`,
Keldysh_symmetries.hpp:185-188: the Keldysh index computed for each stored component of `λ̄`. -/
def nonZeroSbe : Ch → List Nat
  | .a => [0, 1, 2, 3, 9]
  | .p => [0, 1, 4, 5, 12]
  | .t => [0, 1, 2, 3, 5]

/-- Position of a pair of Keldysh indices in the 4×4 matrices of the integrand. -/
def pairNumber (p : Bool × Bool) : Nat := 2 * p.1.toNat + p.2.toNat

/-- Entries of `projection_lambdaBar` and `projection_lambda` before the factor one half,
integrand.hpp:180-215 (Keldysh basis). -/
def projectionTable : List Int := [
  1, 0, 0, 1,
  0, 1, 1, 0,
  0, 1, 1, 0,
  1, 0, 0, 1]

/-- `get_projection_lambdaBar`, `get_projection_lambda`, integrand.hpp:180-213. -/
def projection {R : Type} [Field R] (l r : Bool × Bool) : R :=
  (1 / 2) * ((projectionTable.getD (4 * pairNumber l + pairNumber r) 0 : Int) : R)

/-- Product of two such matrices, as in `result * projection_lambdaBar`, integrand.hpp:1072-1077. -/
def pairMul {R : Type} [Field R] (A B : Bool × Bool → Bool × Bool → R) (l r : Bool × Bool) : R :=
  ∑ m : Bool × Bool, A l m * B m r

end Verif.Symmetries
