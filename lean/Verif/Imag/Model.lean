import Verif.Imag.Spec
import Verif.MatSum.Model
import Verif.Pipeline.Model
import Mathlib.MeasureTheory.Integral.IntervalIntegral.Basic

/-
The computation of one value of a bubble at imaginary frequencies, compiled with `DEBUG_SYMMETRIES` and without
`SBE_DECOMPOSITION`: /repo/source/bubble/bubble_function.hpp:423-490 (finite temperature, without the correction for the
tails of the sum), 399-418 (zero temperature), /repo/source/bubble/bubble.hpp:121-161, 199-220. The vertices are given by
their values at leg energies; the integral at zero temperature is exact.
-/
namespace Verif.Imag
open Verif.Symmetries
open Verif.Freqs (Ch Fr)

variable {R : Type} [CommRing R] [StarRing R]

/-- The propagator pair, `Bubble::value_Matsubara`, /repo/source/bubble/bubble.hpp:143-162: with particle-hole symmetry
only the imaginary part of the propagators is kept and the product gets the sign of `i * i`. -/
def pairOf {K : Type} (ph diff : Bool) (g s : K → R) (y z : K) : R :=
  (if ph then -1 else 1) * (if diff then g y * s z + s y * g z else g y * g z)

/-- What a vertex provides at given leg energies: the spin components 0 and 1 and their sum (spin index 2),
/repo/source/correlation_functions/four_point/vertex.hpp (the `w_r` are not used without `SBE_DECOMPOSITION`). -/
def side {K : Type} (V : Vertex K R) (h : Bool) (c : Ch) (ν : Fin 4 → K) : SpinSum.Side R where
  val s := if s = 2 then V.val h c 0 k0 ν + V.val h c 1 k0 ν else V.val h c s k0 ν
  w _ := 0

/-- One value of class `K3` at finite temperature for the frequencies `(w, v, v')`, in units of the temperature:
bubble_function.hpp:423-480 with the integrand of integrand.hpp:853-996 at the arguments of integrand.hpp:1001-1017. The
rounded halves of the bosonic frequency are those of `floor2bfreq`, `ceil2bfreq`. -/
def finiteT (pos : Nat) (c : Ch) (spin : Nat) (V W : Vertex ℤ R) (P : ℤ → ℤ → R) (x : Fr ℤ) : Res R := do
  let (nmin, nmax) ← MatSum.limits pos x.w
  let lo ← Freqs.floor2b (x.w.tdiv 2)
  let hi ← Freqs.ceil2b (x.w.tdiv 2)
  let lines := fun vpp : ℤ => if c = .p then (vpp + hi, lo - vpp) else (vpp - lo, vpp + hi)
  let sum ← MatSum.matsubaraSum (fun vpp => SpinSum.scalar false .k3 (Pipeline.kch c) spin
    (side V false c (legFun (legsR (fun _ => lo) c { x with v2 := vpp })))
    (side W true c (legFun (legsR (fun _ => lo) c { x with v1 := vpp })))
    (P (lines vpp).1 (lines vpp).2)) nmin nmax
  return (if c = .t then -1 else 1) * sum

/-- Zero temperature: integral over the frequencies between `-b` and `b`, with the lines of bubble.hpp:199-220 and the
factor `1 / (2 π)` of bubble_function.hpp:900-905 left out. -/
noncomputable def zeroT (b : ℝ) : Total ℝ ℂ := fun c w f =>
  ∫ x in (-b)..b, if c = .p then f (x + w / 2) (w / 2 - x) else f (x - w / 2) (x + w / 2)

end Verif.Imag
