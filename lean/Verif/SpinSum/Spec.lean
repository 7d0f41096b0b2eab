import Verif.Keldysh.Model
import Mathlib.Algebra.BigOperators.Group.Finset.Basic
import Mathlib.Data.Fintype.BigOperators
import Mathlib.Algebra.Ring.Defs

/-
Specification of the spin structure. Spin is conserved: a vertex with outgoing spins `s1', s2'` and incoming
spins `s1, s2` has a part in which spin passes from `1` to `1'` and from `2` to `2'`, and a part in which it
passes from `1` to `2'` and from `2` to `1'`.
-/
namespace Verif.SpinSum

open Keldysh

/-- Direct and exchange part of a spin-conserving vertex. -/
structure Vert (A : Type) where
  direct : A
  exchange : A

variable {A : Type} [Ring A]

/-- Value for given spins of the legs `1', 2'` (outgoing), `1, 2` (incoming). -/
def Vert.at (g : Vert A) (s1' s2' s1 s2 : Bool) : A :=
  (if s1' = s1 ∧ s2' = s2 then g.direct else 0) + (if s1' = s2 ∧ s2' = s1 then g.exchange else 0)

/-- Two vertices connected by a pair of propagators, which do not flip spin, in the given channel: sum over
the spins of both internal lines. The positions of the internal lines are those of the channel: line `y`
enters the left vertex as leg `1` (a, p, t) and line `z` closes the ring (a, t) or runs parallel (p). -/
def connect (ch : Ch) (L R : Vert A) (P : A) (s1' s2' s1 s2 : Bool) : A :=
  ∑ y : Bool, ∑ z : Bool,
    match ch with
    | .a => L.at s1' z y s2 * P * R.at y s2' s1 z
    | .p => L.at s1' s2' y z * P * R.at y z s1 s2
    | .t => L.at z s2' y s2 * P * R.at s1' y s1 z

/-- A bubble as a vertex: component with the spins passing straight and crosswise. -/
def bubble (ch : Ch) (L R : Vert A) (P : A) : Vert A :=
  Vert.mk (connect ch L R P true false true false) (connect ch L R P true false false true)

end Verif.SpinSum
