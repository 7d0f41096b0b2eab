import Mathlib.Analysis.Complex.Basic
import Verif.Outcome

/-
Models of the causality check, of the integrated Ward identity and of the loops over the layers of a flow.
-/
namespace Verif.Fdt

/-! ### Causality of the self-energy, causality_FDT_checks.hpp:16-72 -/

/-- A double: a number or not-a-number (`none`); comparisons with the latter are false. -/
abbrev Dbl := Option ℝ

/-- `val > 0.` -/
noncomputable def gtZero (x : Dbl) : Bool := match x with
  | none => false
  | some r => decide (0 < r)

/-- Lines 29-36: number and maximum of the positive values among `Sigma_R`. -/
noncomputable def countPositive (im : List Dbl) : Nat × ℝ :=
  im.foldl (fun s val => match val with
    | some r => if gtZero val then (s.1 + 1, max s.2 r) else s
    | none => s) (0, 0)

/-- Lines 20-23 and 38-45 (Keldysh): imaginary parts of the stored self-energy, of which the first `nFER` values are
inspected; the result is `true` if "Selfenergy is causal." is printed. -/
noncomputable def saysCausal (nFER : Nat) (im : List Dbl) : Bool := (countPositive (im.take nFER)).1 == 0

/-- `sign` of a frequency, math_utils. -/
noncomputable def signum (x : ℝ) : ℝ := if x > 0 then 1 else if x < 0 then -1 else 0

/-- Lines 48-69 (Matsubara): `true` if "Selfenergy has the right sign." is printed; `v i` the frequencies. -/
noncomputable def saysRightSign (nFER : Nat) (v : Nat → ℝ) (im : Nat → Dbl) : Bool :=
  (List.range nFER).all fun i => !(gtZero ((im i).map (· * signum (v i))))

/-! ### Ward identity, postprocessing.hpp:36-68 and postprocessing.c++:39-50 -/

/-- The grid of the self-energy as used by the integrand. -/
structure WardGrid where
  upper : ℝ
  index : ℝ → Int
  freq : Int → ℝ

/-- `Integrand_Ward_id_integrated::operator()`; `phi index` is the stored value of `Phi` of the layer, `se` the retarded
self-energy.  The sum is a complex number of which the imaginary part is returned. -/
noncomputable def wardIntegrand (g : WardGrid) (phi : Int → ℝ) (se : ℝ → ℂ) (vp : ℝ) : ℝ :=
  if |vp| < g.upper then
    let i0 := g.index vp
    let i := if ¬(g.freq i0 < g.freq (i0 + 1)) then i0 - 1 else i0
    let x1 := g.freq i
    let x2 := g.freq (i + 1)
    let xd := (vp - x1) / (x2 - x1)
    let f1 := phi i
    let f2 := phi (i + 1)
    ((((1 - xd) * f1 + xd * f2 : ℝ) : ℂ) + 2 * se vp).im
  else 0

/-- `Phi_integrated`, postprocessing.c++:47-49; `integral` any integration routine; zero divided by zero is
not-a-number. -/
noncomputable def phiIntegrated (integral : (ℝ → ℝ) → ℝ → ℝ → ℝ) (g : WardGrid) (phi : Int → ℝ) (se : ℝ → ℂ)
    (vmin vmax : ℝ) : Dbl :=
  let num := integral (wardIntegrand g phi se) vmin vmax
  let den := integral (wardIntegrand g (fun _ => 0) se) vmin vmax
  if den = 0 then none else some (num / den)

/-! ### Loops over the layers of a flow -/

/-- `for (unsigned int i = 0; i < Lambda_it_max; i++)` with an `int` bound, causality_FDT_checks.c++:9 and
postprocessing.c++:17: the bound is converted to unsigned. -/
def layersUnsigned (max : Int) : List Nat := List.range (max % 4294967296).toNat

/-- `for (int iLambda = 0; iLambda < Lambda_it_max; ++iLambda)`, postprocessing.c++:75. -/
def layersBelow (max : Int) : List Nat := List.range max.toNat

/-- `for (int iLambda = 0; iLambda <= Lambda_it_max; iLambda++)`, postprocessing.c++:139, 172, 228 and 273. -/
def layersUpTo (max : Int) : List Nat := List.range (max + 1).toNat

/-- `check_Kramers_Kronig`, postprocessing.c++:107-119: the layers read from the file. -/
def layersKK (nLambda : Nat) (max : Int) : List Nat :=
  if nLambda = 50 then [1, 5, 13, 16, 26, 32, 37, 41, 44, 47, 49, 51, 53, 56, 65]
  else if nLambda = 100 then [1, 8, 23, 29, 48, 59, 67, 74, 79, 83, 87, 90, 93, 98, 115]
  else List.range max.toNat

/-- Positions of `vs` and `ImSigma`, postprocessing.c++:29 and 31. -/
def posV (nFER nIn iLambda iv iin : Nat) : Nat := iLambda * nFER + iv * nIn + iin

/-- Position of `Phi`, postprocessing.c++:34. -/
def posPhi (nFER nIn iLambda iv iin : Nat) : Nat := iLambda * nFER * nIn + iv * nIn + iin

end Verif.Fdt
