import Verif.Freqs.Model
import Verif.SpinSum.Model
import Mathlib.Algebra.BigOperators.Group.Finset.Basic

/-
Model of the summation over fermionic frequencies at finite temperature,
/repo/source/integrator/integrator.hpp:476-542 and /repo/source/bubble/bubble_function.hpp:423-490. Frequencies
are integers in units of π·T (fermionic: odd, bosonic: even); values are elements of a ring.
-/
namespace Verif.MatSum

open Keldysh SpinSum

variable {A : Type} [Ring A]

/-- `matsubarasum`, integrator.hpp:476-491: a vector of `N = Nmax - Nmin + 1` values is created (throws for a
negative size), the loop adds the integrand at the `N` odd integers starting with `2 * Nmin + 1`. -/
def matsubaraSum (f : Int → A) (nmin nmax : Int) : Res A :=
  let N := nmax - nmin + 1
  if N < 0 then .error .exception
  else .ok ((List.range N.toNat).foldl (fun acc (i : Nat) => acc + f ((nmin + i) * 2 + 1)) 0)

/-- Summation limits of the bubble, bubble_function.hpp:423-426; `pos` is `POSINTRANGE`, `w` the bosonic frequency
(an even integer). -/
def limits (pos : Nat) (w : Int) : Res (Int × Int) := do
  let corr ← Freqs.signFlipInt (w : ℚ)
  let W := w.tdiv 2
  return (-(pos : Int) - |W.tdiv 2| + corr, (pos : Int) - 1 + |W.tdiv 2|)

/-- Limits of the sum in the self-energy loop, /repo/source/loop/loop.hpp:78-95. -/
def loopLimits (pos : Nat) : Int × Int :=
  let nmin : Int := -(pos : Int)
  (nmin, -nmin - 1)

/-- Frequencies of the two propagators at the integration frequency `vpp`,
/repo/source/bubble/bubble.hpp:173-197 (finite-temperature branch). -/
def pair (ch : Ch) (w vpp : Int) : Res (Int × Int) := do
  let lo ← Freqs.floor2b (w.tdiv 2)
  let hi ← Freqs.ceil2b (w.tdiv 2)
  match ch with
  | .p => return (hi + vpp, lo - vpp)
  | _ => return (vpp - lo, vpp + hi)

/-- The matrices of `matsubarasum_vectorized`, integrator.hpp:493-540: column `c` of the left matrix belongs to
the summation index `nmin + c / ns` and the spin entry `c % ns`; the rows of the right matrix and the diagonal
likewise. `left v vpp`, `pi vpp`, `right vpp vp` are the loaded lists of `ns` entries. One entry of the matrix
product `left * diag(pi) * right`. -/
def vectorisedEntry (ns : Nat) (left : Int → Int → List A) (pi : Int → List A) (right : Int → Int → List A)
    (nmin nmax v vp : Int) : A :=
  ∑ c ∈ Finset.range ((nmax - nmin + 1).toNat * ns),
    (left v ((nmin + (c / ns : Nat)) * 2 + 1)).getD (c % ns) 0 *
      (pi ((nmin + (c / ns : Nat)) * 2 + 1)).getD (c % ns) 0 *
      (right ((nmin + (c / ns : Nat)) * 2 + 1) vp).getD (c % ns) 0

/-- Number of spin entries, integrator.hpp:495. -/
def nSpinSum (ch : Ch) (spin : Nat) : Nat := if summed ch spin then 2 else 1

/-- Ranges of the outer frequency indices, bubble_function.hpp:433-445: `(Nmin_v, Nmax_v, Nmin_vp, Nmax_vp, N_vp)`. -/
def outer (k : Class) (full : Bool) (nf2 nf3 : Nat) : Int × Int × Int × Int × Int :=
  let n2 : Int := nf2
  let n3 : Int := nf3
  match k with
  | .k1 => (0, 0, 0, 0, 1)
  | .k2 => ((-n2).tdiv 2, (if full then n2.tdiv 2 - 1 else -1), 0, 0, 1)
  | .k2b => (0, 0, (-n2).tdiv 2, (if full then n2.tdiv 2 - 1 else -1), n2)
  | .k3 => ((-n3).tdiv 2, (if full then n3.tdiv 2 - 1 else -1), (-n3).tdiv 2, n3.tdiv 2 - 1, n3)

/-- Index in the output at which the result for `(i, j)` is stored, bubble_function.hpp:470-474. -/
def slot (o : Int × Int × Int × Int × Int) (i j : Int) : Int := (-o.1 + i) * o.2.2.2.2 + (-o.2.2.1 + j)

/-- Factor in front of the quadrature of the tails when `ANALYTIC_TAILS` is 0, in units of `π * T` and of the
prefactor of the bubble: bubble_function.hpp:463 (vectorised) and bubble_function.hpp:489 (scalar). -/
def tailFactor (vectorised : Bool) : Int := if vectorised then 1 else 2

end Verif.MatSum
