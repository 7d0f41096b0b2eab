import Verif.Interp.Model
import Mathlib.Analysis.Complex.Basic

/-
Model of reading a self-energy, /repo/source/correlation_functions/two_point/selfenergy.hpp:207-226.
-/
namespace Verif.SelfEnergy

open Interp FreqGrid MultiArray

/-- `SelfEnergy::valsmooth(iK, v, i_in)`, selfenergy.hpp:207-226, real frequencies. `indices` carries the
Keldysh and internal index, `pos` the position of the frequency index in the buffer; with `BARE_SE_FEEDBACK`
the frequency argument of the interpolation is zero. -/
noncomputable def valsmooth (meth : Method) (a : Axis) (tol : ℝ) (data : MArr ℂ) (pos : Nat) (asymp : ℂ)
    (bareFeedback : Bool) (indices : List Nat) (iK : Nat) (v : ℝ) : Res ℂ :=
  if |v| > a.grid.upper + tol then .ok ((1 - (iK : ℂ)) * asymp)
  else do
    let r ← interpolate meth id [a] tol data pos 1 [if bareFeedback then 0 else v] indices
    return r.getD 0 0 + (1 - (iK : ℂ)) * asymp

end Verif.SelfEnergy
