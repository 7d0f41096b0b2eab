import Verif.Tails.Model
import Verif.SpinSum.Model
import Verif.Vertex.Model
import Mathlib.Analysis.SpecialFunctions.Complex.Arctan

/-
Model of the analytic completion of diagrams by their tails: the loop, /repo/source/asymptotic_corrections/
loop_corrections.hpp and correction_functions.hpp:354-434, and the bubble with its two vertices,
correction_functions.hpp:51-349.
-/
namespace Verif.DiagTails
open Complex Keldysh SpinSum

/-- `correctionFunctionSelfEnergy_Keldysh`, loop_corrections.hpp:24-51: `iK` is 0, 1, 2 for the retarded, advanced
and Keldysh propagator. The inner `switch` of the case `'g'` falls through to that of `'s'`, which has no further
case either: the value is zero. -/
noncomputable def selfKeldysh (iK : Nat) (vmin vmax : ℝ) (eps : ℂ) (Δ : ℝ) (type : Char) : ℂ :=
  if type = 'g' then
    if iK = 0 then log (((|vmin| : ℝ) + eps - I * Δ) / (vmax - eps + I * Δ))
    else if iK = 1 then log (((|vmin| : ℝ) + eps + I * Δ) / (vmax - eps - I * Δ))
    else if iK = 2 then 2 * I * (arctan ((vmax - eps) / Δ) - arctan (((|vmin| : ℝ) + eps) / Δ))
    else 0
  else if type = 's' then
    if iK = 0 then -I / 2 * (1 / (vmax - eps + I * Δ) - 1 / (vmin - eps + I * Δ))
    else if iK = 1 then I / 2 * (1 / (vmax - eps - I * Δ) - 1 / (vmin - eps - I * Δ))
    else if iK = 2 then -I * ((vmax - eps) / ((vmax - eps) * (vmax - eps) + Δ * Δ)
      + (vmin - eps) / ((vmin - eps) * (vmin - eps) + Δ * Δ))
    else 0
  else 0

/-- `correctionFunctionSelfEnergy_Matsubara_PHS`, loop_corrections.hpp:56-65. -/
noncomputable def selfPHS (vmin vmax Δ : ℝ) (type : Char) : ℝ :=
  if type = 'g' then -Real.log ((|vmin| + Δ) / (vmax + Δ))
  else if type = 's' then -1 / 2 * (-1 / (vmax + Δ) + 1 / (-vmin + Δ))
  else 0

/-- `correctionFunctionSelfEnergy_Matsubara_NoPHS`, loop_corrections.hpp:68-77. -/
noncomputable def selfNoPHS (vmin vmax : ℝ) (eps : ℂ) (Δ : ℝ) (type : Char) : ℂ :=
  if type = 'g' then -I * log (((|vmin| : ℝ) - I * eps + Δ) / (vmax + I * eps + Δ))
  else if type = 's' then -I / 2 * (-1 / (vmax + I * eps + Δ) - 1 / (vmin + I * eps - Δ))
  else 0

/-- What the loop tail needs of a vertex: the bare part and `K1 + K2'` of channel t at `w = 0, v' = v`
(`left_same_bare`), for a Keldysh component and a spin component. -/
structure LoopVertex where
  bare : Nat → Nat → ℂ
  same : Nat → Nat → ℂ

/-- `components` of `asymp_corrections_loop`, correction_functions.hpp:381: row 0 for the retarded, row 1 for the
Keldysh self-energy. -/
def tailComponents (iK : Nat) : List Nat := if iK = 0 then [3, 6, 7] else [1, 4, 5]

/-- One of `factorRetarded`, `factorAdvanced`, `factorKeldysh`, correction_functions.hpp:384-408. -/
def factor (Γ : LoopVertex) (c ispin : Nat) (allSpins : Bool) : ℂ :=
  if allSpins then (Γ.bare c 0 + Γ.same c ispin) * 2 + (Γ.bare c 1 + Γ.same c 1)
  else Γ.bare c 0 + Γ.same c ispin

/-- `asymp_corrections_loop` on the Keldysh contour, correction_functions.hpp:379-416; `iK < 2`. -/
noncomputable def loopKeldysh (Γ : LoopVertex) (vmin vmax : ℝ) (eps : ℂ) (Δ : ℝ) (type : Char) (iK ispin : Nat)
    (allSpins : Bool) : ℂ :=
  let k := tailComponents iK
  factor Γ (k.getD 0 0) ispin allSpins * selfKeldysh 0 vmin vmax eps Δ type
    + factor Γ (k.getD 1 0) ispin allSpins * selfKeldysh 1 vmin vmax eps Δ type
    + factor Γ (k.getD 2 0) ispin allSpins * selfKeldysh 2 vmin vmax eps Δ type

/-- `Vertexfactor` of the imaginary-frequency formalism, correction_functions.hpp:418-428: with the spin sum, the bare
vertex of the second spin component is not added. -/
def factorMatsubara (Γ : LoopVertex) (ispin : Nat) (allSpins : Bool) : ℂ :=
  if allSpins then (Γ.bare 0 0 + Γ.same 0 ispin) * 2 + Γ.same 0 1
  else Γ.bare 0 0 + Γ.same 0 ispin

/-- `asymp_corrections_loop` at imaginary frequencies, correction_functions.hpp:417-433. -/
noncomputable def loopMatsubara (phs : Bool) (Γ : LoopVertex) (vmin vmax : ℝ) (eps : ℂ) (Δ : ℝ) (type : Char)
    (ispin : Nat) (allSpins : Bool) : ℂ :=
  factorMatsubara Γ ispin allSpins * (if phs then (selfPHS vmin vmax Δ type : ℂ) else selfNoPHS vmin vmax eps Δ type)

/-- The integrand of the loop at imaginary frequencies, /repo/source/loop/integrandSE.hpp:340-355: with
particle-hole symmetry an additional factor `-1`. -/
noncomputable def matsubaraIntegrand (phs : Bool) (g : ℝ → ℂ) (vertex : ℝ → ℂ) (ν : ℝ) : ℂ :=
  if phs then -(g ν * vertex ν) else g ν * vertex ν

/-! ### The bubble -/

/-- The frequency that stands for infinity in the arguments of the vertices, correction_functions.hpp:146-149. -/
def atInfinity (vmin : ℝ) : ℝ := 10 * vmin + 1

/-- The combination of vertices and `Pival` at the end of `asymp_corrections_bubble`,
correction_functions.hpp:246-349, compiled with `DEBUG_SYMMETRIES`; `hat` is the other spin component. -/
def bubbleTail (sbe : Bool) (k : Class) (ch : Ch) (spin : Nat) (L R : Side ℂ) (P : ℂ) : ℂ :=
  let l := L.val spin
  let r := R.val spin
  let lh := L.val (1 - spin)
  let rh := R.val (1 - spin)
  if sbe then
    if (ch = .t ∧ spin = 0) ∨ (ch = .a ∧ spin = 1) then
      let wl := L.w spin
      let wr := R.w spin
      let wlh := L.w (1 - spin)
      let wrh := R.w (1 - spin)
      if k = .k1 then
        (wl + wlh) * (l + lh) * P * (r + rh) * wr + (wl + wlh) * (l + lh) * P * r * (wr + wrh)
          + (wl + wlh) * l * P * (r + rh) * (wr + wrh) + (wl + wlh) * l * P * r * wr
          + wl * l * P * (r + rh) * wr + wl * l * P * r * (wr + wrh)
          + wl * (l + lh) * P * (r + rh) * (wr + wrh) + wl * (l + lh) * P * r * wr
      else (l + lh) * P * r + l * P * (r + rh)
    else if ch = .p ∧ spin = 1 then
      if k = .k1 then L.w spin * lh * P * rh * R.w (1 - spin)
      else if k = .k2 then lh * P * r
      else if k = .k2b then l * P * rh
      else l * P * rh
    else if k = .k1 then L.w spin * l * P * r * R.w spin
    else l * P * r
  else if ch = .a then
    if spin = 0 then l * P * r else l * P * (r + rh) + (l + lh) * P * r
  else if ch = .p then
    if spin = 0 then l * P * r else l * P * rh
  else
    if spin = 0 then l * P * (r + rh) + (l + lh) * P * r else l * P * r

/-- What the frequency sum is completed with at finite temperature, /repo/source/bubble/bubble_function.hpp:454-465 and
479-490: `tail` is the result of `asymp_corrections_bubble` (physical frequencies), `quad` that of the quadrature over
the integer frequencies (in units of `πT`) outside of the sum. `ANALYTIC_TAILS` decides which; the factor of the
quadrature depends on `VECTORIZED_INTEGRATION`. -/
noncomputable def added (analytic vectorised : Bool) (prefactor : ℂ) (T : ℝ) (tail quad : ℂ) : ℂ :=
  if analytic then prefactor * tail
  else if vectorised then prefactor * Real.pi * T * quad
  else prefactor * (2 * Real.pi) * T * quad

end Verif.DiagTails
