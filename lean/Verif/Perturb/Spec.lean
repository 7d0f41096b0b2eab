import Verif.Perturb.Model
import Mathlib.Algebra.BigOperators.Group.Finset.Basic
import Mathlib.Algebra.BigOperators.Fin
import Mathlib.Algebra.BigOperators.NatAntidiagonal

/-
Specification: the expansion of the parquet equations in powers of the bare interaction.
-/
namespace Verif.Perturb
variable {A S : Type} [AddCommGroup A]

/-- The part of a vertex that is irreducible in a channel. -/
def irreducibleIn (ch : Ch) (x : Vtx A) : Vtx A := { x with red := fun c k => if c = ch then 0 else x.red c k }

/-- `order N n` is the contribution of order `n` in the bare interaction to the solution of the Bethe–Salpeter equations
`γ_r = (Γ - γ_r) Π_r Γ` in all three channels, with the bare vertex as the fully irreducible one (parquet
approximation, exact up to third order). -/
def order (N : Numerics A S) : Nat → Vtx A
  | 0 => Vtx.zero
  | 1 => ⟨N.bare, fun _ _ => 0⟩
  | n + 2 => ⟨0, fun ch k =>
      ∑ i : Fin (n + 1), N.bubble ch k (irreducibleIn ch (order N (i.1 + 1))) (order N (n + 1 - i.1))⟩
termination_by n => n
decreasing_by all_goals omega

/-- Sum of the contributions up to an order. -/
def upTo (N : Numerics A S) : Nat → Vtx A
  | 0 => Vtx.zero
  | n + 1 => (upTo N n).plus (order N (n + 1))

/-- Properties of the exact bubble: it is bilinear, and its classes are told apart by the side on which the frequency of
the bubble leaves a trace. A bare vertex and the first class of the same channel at the left contribute to the classes 1
and 2' only, at the right to the classes 1 and 2 only; parts reducible in other channels at the left contribute to the
classes 2 and 3 only, at the right to 2' and 3 only. A ladder of three bare vertices can be closed from either side. -/
structure Exact (N : Numerics A S) : Prop where
  addl : ∀ ch k x y z, N.bubble ch k (x.plus y) z = N.bubble ch k x z + N.bubble ch k y z
  addr : ∀ ch k x y z, N.bubble ch k z (x.plus y) = N.bubble ch k z x + N.bubble ch k z y
  sameLeft : ∀ ch k x z, (∀ c j, c ≠ ch ∨ j ≠ .k1 → x.red c j = 0) → k = .k2 ∨ k = .k3 → N.bubble ch k x z = 0
  sameRight : ∀ ch k x z, (∀ c j, c ≠ ch ∨ j ≠ .k1 → x.red c j = 0) → k = .k2b ∨ k = .k3 → N.bubble ch k z x = 0
  otherLeft : ∀ ch k x z, x.irred = 0 → (∀ j, x.red ch j = 0) → k = .k1 ∨ k = .k2b → N.bubble ch k x z = 0
  otherRight : ∀ ch k x z, x.irred = 0 → (∀ j, x.red ch j = 0) → k = .k1 ∨ k = .k2 → N.bubble ch k z x = 0
  ladder : ∀ ch k (x y : Vtx A), x = ⟨N.bare, fun _ _ => 0⟩ →
    y = ⟨0, fun c j => if c = ch then N.bubble ch j x x else 0⟩ → N.bubble ch k y x = N.bubble ch k x y

/-- A concrete bubble on integers: `D` collects the parts that carry the frequency of the bubble on the respective
side, `S` the others. -/
def toySame (ch : Ch) (own : Cls) (x : Vtx Int) : Int := x.irred + x.red ch .k1 + x.red ch own
def toyDiff (ch : Ch) (own : Cls) (x : Vtx Int) : Int :=
  x.red ch own + x.red ch .k3 +
    (([Ch.a, .p, .t].filter (· ≠ ch)).map fun c => x.red c .k1 + x.red c .k2 + x.red c .k2b + x.red c .k3).sum

/-- Numerics built from it with bare vertex 1 and Hartree term 1. -/
def toy : Numerics Int Int where
  bubble ch k l r := match k with
    | .k1 => toySame ch .k2b l * toySame ch .k2 r
    | .k2 => toyDiff ch .k2 l * toySame ch .k2 r
    | .k2b => toySame ch .k2b l * toyDiff ch .k2b r
    | .k3 => toyDiff ch .k2 l * toyDiff ch .k2b r
  loop v := v.red .a .k1
  bare := 1
  hartree := 1

end Verif.Perturb
