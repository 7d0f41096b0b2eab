import Verif.Propagator.Model
import Verif.Keldysh.Model
import Mathlib.Analysis.SpecialFunctions.Complex.Log

/-
Model of the analytic tails of the bubble, /repo/source/asymptotic_corrections/bubble_corrections.hpp. Doubles are
real numbers, complex doubles complex numbers; `log` is the principal branch. The formulas for regulator 3
(bubble_corrections.hpp:156-292) are not modelled.
-/
namespace Verif.Tails
open Complex

/-- `correctionFunctionBubbleAT_REG2_Keldysh`, bubble_corrections.hpp:24-41. -/
noncomputable def atKeldysh (w vmin vmax : ℝ) (eps : ℂ) (Δ η₁ η₂ : ℝ) (diff : Bool) : ℂ :=
  if diff then 0
  else if w = 0 ∧ η₁ = η₂ then
    1 / (vmax - eps + η₁ * I * Δ) + 1 / (|vmin| + eps - η₁ * I * Δ)
  else 1 / (-w + (η₁ - η₂) * I * Δ) *
    log (((vmax - w / 2 - eps + η₁ * I * Δ) * (|vmin| - w / 2 + eps - η₂ * I * Δ)) /
      ((vmax + w / 2 - eps + η₂ * I * Δ) * (|vmin| + w / 2 + eps - η₁ * I * Δ)))

/-- `correctionFunctionBubbleAT_REG2_Matsubara_PHS`, bubble_corrections.hpp:47-70. -/
noncomputable def atPHS (w vmin vmax Δ : ℝ) (diff : Bool) : ℝ :=
  if diff then 1 / 2 * (1 / ((-vmin + Δ) ^ 2 - (w / 2) ^ 2) + 1 / ((vmax + Δ) ^ 2 - (w / 2) ^ 2))
  else if w = 0 then -1 / (vmax + Δ) + 1 / (vmin - Δ)
  else 1 / w * Real.log (((-vmin - w / 2 + Δ) * (vmax - w / 2 + Δ)) / ((-vmin + w / 2 + Δ) * (vmax + w / 2 + Δ)))

/-- `correctionFunctionBubbleAT_REG2_Matsubara_NoPHS`, bubble_corrections.hpp:72-95. -/
noncomputable def atNoPHS (w vmin vmax : ℝ) (eps : ℂ) (Δ : ℝ) (diff : Bool) : ℂ :=
  if diff then 1 / 2 * (1 / ((-vmin - I * eps + Δ) ^ 2 - (w / 2) ^ 2) + 1 / ((vmax + I * eps + Δ) ^ 2 - (w / 2) ^ 2))
  else if w = 0 then -1 / (vmax + I * eps + Δ) + 1 / (vmin + I * eps - Δ)
  else 1 / w * log (((-vmin - w / 2 - I * eps + Δ) * (vmax - w / 2 + I * eps + Δ)) /
    ((-vmin + w / 2 - I * eps + Δ) * (vmax + w / 2 + I * eps + Δ)))

/-- `correctionFunctionBubbleP_REG2_Keldysh`, bubble_corrections.hpp:101-116. -/
noncomputable def pKeldysh (w vmin vmax : ℝ) (eps : ℂ) (Δ η₁ η₂ : ℝ) (diff : Bool) : ℂ :=
  open Classical in
  if diff then 0
  else if (w : ℂ) = 2 * eps ∧ η₁ = -η₂ then
    -1 / (vmax + η₁ * I * Δ) - 1 / (|vmin| - η₁ * I * Δ)
  else -1 / (w - 2 * eps + (η₁ + η₂) * I * Δ) *
    log (((vmax + w / 2 - eps + η₁ * I * Δ) * (|vmin| + w / 2 - eps + η₂ * I * Δ)) /
      ((vmax - w / 2 + eps - η₂ * I * Δ) * (|vmin| - w / 2 + eps - η₁ * I * Δ)))

/-- `correctionFunctionBubbleP_REG2_Matsubara_PHS`, bubble_corrections.hpp:122-127. -/
noncomputable def pPHS (w vmin vmax Δ : ℝ) (diff : Bool) : ℝ := -atPHS w vmin vmax Δ diff

/-- `correctionFunctionBubbleP_REG2_Matsubara_NoPHS`, bubble_corrections.hpp:129-147. -/
noncomputable def pNoPHS (w vmin vmax : ℝ) (eps : ℂ) (Δ : ℝ) (diff : Bool) : ℂ :=
  open Classical in
  if diff then
    1 / 2 * (1 / ((-vmin + Δ) ^ 2 - (w / 2 + I * eps) ^ 2) + 1 / ((vmax + Δ) ^ 2 - (w / 2 + I * eps) ^ 2))
  else if eps = 0 ∧ w = 0 then 1 / (vmax + Δ) - 1 / (vmin - Δ)
  else 1 / (w + 2 * I * eps) * log (((-vmin + w / 2 + I * eps + Δ) * (vmax + w / 2 + I * eps + Δ)) /
    ((-vmin - w / 2 - I * eps + Δ) * (vmax - w / 2 - I * eps + Δ)))

/-- `correctionFunctionBubble_REG4_Matsubara_PHS`, bubble_corrections.hpp:153-162. -/
noncomputable def reg4 (w vmin vmax Δ : ℝ) : ℝ :=
  if |w| < 1 / 10 ^ 20 then -1 / (vmax + Δ) + 1 / (vmin - Δ)
  else -Real.log ((vmax + w * 0.5 + Δ) * (vmin - w * 0.5 - Δ) / ((vmax - w * 0.5 + Δ) * (vmin + w * 0.5 - Δ))) / w

/-- `correctionFunctionBubbleAT_REG4_Matsubara_PHS` and `…P…`, bubble_corrections.hpp:328-361. -/
noncomputable def reg4Channel (p : Bool) (w vmin vmax Δ Lam : ℝ) (diff : Bool) : ℝ :=
  let x := if diff then 2 * Lam * reg4 w vmin vmax Δ else Lam * Lam * reg4 w vmin vmax Δ
  if p then -x else x

/-- Hybridisation used for the tail, correction_functions.hpp:66-72. -/
noncomputable def hybridisation (reg : Nat) (Gam Lam : ℝ) : ℝ :=
  if reg = 2 then (Gam + Lam) / 2 else Gam / 2

/-- `correctionFunctionBubble` in the imaginary-frequency formalism for the regulators 2 and 4 and for those without
tails, bubble_corrections.hpp:365-465. Without particle-hole symmetry and regulator 3 or 4 the exception object is
constructed but not thrown, and the function ends without a return statement: undefined behaviour. Regulator 3 with
particle-hole symmetry is not modelled (`none`). -/
noncomputable def matsubaraTail (reg : Nat) (phs p : Bool) (w vmin vmax : ℝ) (eps : ℂ) (Gam Lam : ℝ) (diff : Bool) :
    Option (Res ℂ) :=
  let Δ := hybridisation reg Gam Lam
  if reg = 2 then
    if phs then some (.ok (if p then pPHS w vmin vmax Δ diff else atPHS w vmin vmax Δ diff : ℝ))
    else some (.ok (if p then pNoPHS w vmin vmax eps Δ diff else atNoPHS w vmin vmax eps Δ diff))
  else if reg = 3 then if phs then none else some (.error .undefined)
  else if reg = 4 then
    if phs then some (.ok (reg4Channel p w vmin vmax Δ Lam diff : ℝ)) else some (.error .undefined)
  else some (.ok 0)

/-- The bubble of two propagators at zero temperature, /repo/source/bubble/bubble.hpp:96-130 and 172-198: `g ν` and
`s ν` are the propagator and the single-scale propagator; with particle-hole symmetry the product of the stored real
numbers is multiplied by `-1`. -/
noncomputable def bubbleValue (phs p diff : Bool) (g s : ℝ → ℂ) (w v : ℝ) : ℂ :=
  let v1 := if p then w / 2 + v else v - w / 2
  let v2 := if p then w / 2 - v else v + w / 2
  let x := if diff then g v1 * s v2 + s v1 * g v2 else g v1 * g v2
  if phs then x * (-1) else x

end Verif.Tails
