import Verif.Keldysh.Model
import Verif.Symmetries.Model

/-
Model of `Integrand::case_always_has_to_be_zero`, /repo/source/bubble/integrand.hpp:377-409, which leaves out internal
Keldysh components when only the first diagrammatic class is computed (`MAX_DIAG_CLASS <= 1`, one internal component at
a time, no differentiated propagator).
-/
namespace Verif.Skip

open Keldysh

/-- integrand.hpp:383-389 and 398-404. -/
def skipAT (i0 i2 : Nat) : Bool :=
  let z := if i0 = 1 ∧ (i2 ≠ 11 ∧ i2 ≠ 13) then true else false
  if i0 = 3 ∧ (i2 ≠ 6 ∧ i2 ≠ 7 ∧ i2 ≠ 9 ∧ i2 ≠ 11 ∧ i2 ≠ 13 ∧ i2 ≠ 14 ∧ i2 ≠ 15) then true else z

/-- integrand.hpp:390-397. -/
def skipP (i0 i2 : Nat) : Bool :=
  let z := if i0 = 1 ∧ (i2 ≠ 7 ∧ i2 ≠ 11) then true else false
  if i0 = 5 ∧ (i2 ≠ 3 ∧ i2 ≠ 7 ∧ i2 ≠ 11 ∧ i2 ≠ 12 ∧ i2 ≠ 13 ∧ i2 ≠ 14 ∧ i2 ≠ 15) then true else z

/-- `case_always_has_to_be_zero` for a channel; `diff`: differentiated propagators, for which nothing is left out. -/
def skip (ch : Ch) (diff : Bool) (i0 i2 : Nat) : Bool :=
  if diff then false else
  match ch with
  | .a => skipAT i0 i2
  | .p => skipP i0 i2
  | .t => skipAT i0 i2

/-- The value of `Integrand::operator()` for one internal component, integrand.hpp:302-309 (one summand of the spin sum,
without its factor; the vertices of first class do not depend on the frequency in the bubble). -/
def summand (ch : Ch) (diff : Bool) (L R : Nat → ℂ) (bub : Nat → ℂ) (i0 i2 : Nat) : ℂ :=
  if skip ch diff i0 i2 then 0 else L (indicesSum ch i0 i2).1 * bub i2 * R (indicesSum ch i0 i2).2

end Verif.Skip
