import Verif.Keldysh.Model
import Mathlib.Algebra.Ring.Defs

/-
Model of the spin sums in the bubble integrand, /repo/source/bubble/integrand.hpp:584-1200, compiled with
`DEBUG_SYMMETRIES` (two spin components are computed). Vertex values and the propagator pair are elements of
a (non-commutative) ring: numbers in the imaginary-frequency formalism, 4×4 matrices on the Keldysh contour.
-/
namespace Verif.SpinSum

open Keldysh

/-- Diagrammatic classes. -/
inductive Class
  | k1 | k2 | k2b | k3
  deriving DecidableEq, Repr

/-- What one vertex of the bubble provides at the current frequencies: the loaded value and the bosonic
`w_r` for the spin components 0, 1 and 2 (`load_vertex_keldyshComponents_*<spin>`,
`get_w_r_value_symmetry_expanded_nondiff<spin>`). -/
structure Side (A : Type) where
  val : Nat → A
  w : Nat → A

variable {A : Type} [Ring A]

/-- The combinations that need the sum over the internal spin: `(channel == 't' and spin == 0) or
(channel == 'a' and spin == 1)`. -/
def summed (ch : Ch) (spin : Nat) : Bool := (ch = .t ∧ spin = 0) ∨ (ch = .a ∧ spin = 1)

/-- `sum_over_internal_scalar`, integrand.hpp:853-997; with `SBE_DECOMPOSITION` also the eight-term sum of
`sum_over_internal_vectorized` (without the projections), integrand.hpp:1053-1062. -/
def scalar (sbe : Bool) (k : Class) (ch : Ch) (spin : Nat) (L R : Side A) (P : A) : A :=
  let l := L.val spin
  let r := R.val spin
  if sbe then
    if summed ch spin then
      let lu := L.val 2
      let ru := R.val 2
      if k = .k1 then
        let wl := L.w spin
        let wr := R.w spin
        let wlu := L.w 2
        let wru := R.w 2
        wlu * lu * P * ru * wr + wlu * lu * P * r * wru + wlu * l * P * ru * wru + wlu * l * P * r * wr
          + wl * l * P * ru * wr + wl * l * P * r * wru + wl * lu * P * ru * wru + wl * lu * P * r * wr
      else lu * P * r + l * P * ru
    else if ch = .p ∧ spin = 1 then
      let lo := L.val (1 - spin)
      let ro := R.val (1 - spin)
      if k = .k1 then L.w spin * lo * P * ro * R.w (1 - spin)
      else if k = .k2 then lo * P * r
      else l * P * ro
    else if k = .k1 then L.w spin * l * P * r * R.w spin
    else l * P * r
  else if summed ch spin then L.val 2 * P * r + l * P * R.val 2
  else if ch = .p ∧ spin = 1 then l * P * R.val (1 - spin)
  else l * P * r

/-- `sum_over_internal_vectorized` without `SBE_DECOMPOSITION`, integrand.hpp:1157-1197. -/
def matrixForm (ch : Ch) (spin : Nat) (L R : Side A) (P : A) : A :=
  let l := L.val spin
  let r := R.val spin
  if summed ch spin then (l + L.val (1 - spin)) * P * r + l * P * (r + R.val (1 - spin))
  else if ch = .p ∧ spin = 1 then l * P * R.val (1 - spin)
  else l * P * r

/-- `load_vertex_keldysh_and_spin_Components_left_vectorized`, integrand.hpp:583-704. -/
def leftVec (sbe : Bool) (k : Class) (ch : Ch) (spin : Nat) (L : Side A) : List A :=
  let l := L.val spin
  if sbe then
    if summed ch spin then
      if k = .k1 then [L.w 2 * l + L.w spin * L.val 2, L.w 2 * L.val 2 + L.w spin * l]
      else [l, L.val 2]
    else if ch = .p ∧ spin = 1 then
      if k = .k1 then [L.w spin * L.val (1 - spin)]
      else if k = .k2 then [L.val (1 - spin)]
      else [l]
    else if k = .k1 then [L.w spin * l]
    else [l]
  else if summed ch spin then [l, L.val 2]
  else [l]

/-- `load_vertex_keldysh_and_spin_Components_right_vectorized`, integrand.hpp:707-832. -/
def rightVec (sbe : Bool) (k : Class) (ch : Ch) (spin : Nat) (R : Side A) : List A :=
  let r := R.val spin
  if sbe then
    if summed ch spin then
      if k = .k1 then [R.val 2 * R.w 2 + r * R.w spin, r * R.w 2 + R.val 2 * R.w spin]
      else [R.val 2, r]
    else if ch = .p ∧ spin = 1 then
      if k = .k1 then [R.val (1 - spin) * R.w (1 - spin)]
      else if k = .k2 then [r]
      else [R.val (1 - spin)]
    else if k = .k1 then [r * R.w spin]
    else [r]
  else if summed ch spin then [R.val 2, r]
  else if ch = .p ∧ spin = 1 then [R.val (1 - spin)]
  else [r]

/-- `load_Pi_keldysh_and_spin_Components_vectorized`, integrand.hpp:834-849. -/
def piVec (ch : Ch) (spin : Nat) (P : A) : List A := if summed ch spin then [P, P] else [P]

end Verif.SpinSum
