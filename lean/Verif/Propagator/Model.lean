import Verif.Outcome
import Mathlib.Analysis.Complex.Trigonometric
import Mathlib.Data.Complex.Basic

/-
Model of /repo/source/correlation_functions/two_point/propagator.hpp and propagator.c++.
Doubles are real numbers, complex doubles complex numbers; division by zero is that of Lean (zero), so
the theorems state the non-vanishing of denominators where it matters.  The interpolated values of the
self-energy and of its derivative at the frequency under consideration are arguments.
-/
namespace Verif.Propagator
open Complex

/-- Parameters of a propagator object, propagator.hpp:36-42, the chemical potential `glb_mu` and the
frequency `v`. -/
structure Par where
  /-- `Lambda` -/
  Lam : ℝ
  /-- `epsilon` -/
  eps : ℝ
  /-- `Gamma` -/
  Gam : ℝ
  /-- `T` -/
  T : ℝ
  /-- `glb_mu` -/
  mu : ℝ
  /-- the frequency argument -/
  v : ℝ

/-- Values of a self-energy at the frequency: `valsmooth(0, v)`, `valsmooth(1, v)` and `asymp_val_R`. -/
structure SE where
  R : ℂ
  K : ℂ
  asymp : ℂ

/-! ### Distribution functions, propagator.c++ -/

/-- `Fermi_distr`, propagator.c++:3-6 (finite temperature). -/
noncomputable def fermiDistr (v mu T : ℝ) : ℝ := 0.5 * (1 - Real.tanh ((v - mu) / (2 * T)))

/-- `Fermi_distr`, propagator.c++:5 (`ZERO_T`). -/
noncomputable def fermiDistr0 (v mu : ℝ) : ℝ := if v - mu < 0 then 1 else 0

/-- `Fermi_fac`, propagator.c++:8-11 (finite temperature). -/
noncomputable def fermiFac (v mu T : ℝ) : ℝ := Real.tanh ((v - mu) / (2 * T))

/-- `sgn`, math_utils.c++:21-23. -/
noncomputable def sgn (x : ℝ) : ℝ := (if x ≥ 0 then 1 else 0) - (if x ≤ 0 then 1 else 0)

/-- `Fermi_fac`, propagator.c++:10 (`ZERO_T`). -/
noncomputable def fermiFac0 (v mu : ℝ) : ℝ := sgn (v - mu)

/-- `Eff_distr`, propagator.c++:13-16; `V` is the bias `glb_V`. -/
noncomputable def effDistr (equilibrium : Bool) (v T mu V : ℝ) : ℝ :=
  if equilibrium then fermiDistr v mu T
  else 0.5 * (fermiDistr v (mu + V / 2) T + fermiDistr v (mu - V / 2) T)

/-- `Eff_fac`, propagator.c++:18-21. -/
noncomputable def effFac (equilibrium : Bool) (v T mu V : ℝ) : ℝ :=
  if equilibrium then fermiFac v mu T
  else 1 - (fermiDistr v (mu + V / 2) T + fermiDistr v (mu - V / 2) T)

/-- The same at zero temperature. -/
noncomputable def effFac0 (equilibrium : Bool) (v mu V : ℝ) : ℝ :=
  if equilibrium then fermiFac0 v mu
  else 1 - (fermiDistr0 v (mu + V / 2) + fermiDistr0 v (mu - V / 2))

/-- `Fermi_distribution`, propagator.c++:23-33 (finite temperature). -/
noncomputable def fermiDistribution (nu T : ℝ) : ℝ := 1 / (Real.exp (nu / T) + 1)

/-- `Fermi_distribution`, propagator.c++:23-33 (`ZERO_T`). -/
noncomputable def fermiDistribution0 (nu : ℝ) : ℝ := if nu > 0 then 0 else if nu = 0 then 1 / 2 else 1

/-! ### Retarded components -/

/-- `G0R_inv_SIAM`, propagator.hpp:673-676. -/
noncomputable def g0Rinv (p : Par) : ℂ := (p.v - p.eps : ℝ) + I * p.Gam * 0.5

/-- `GR_REG2`, propagator.hpp:681-685. -/
noncomputable def gR2 (p : Par) (s : SE) : ℂ := 1 / (g0Rinv p + I * p.Lam * 0.5 - s.R)

/-- `SR_REG2`, propagator.hpp:687-691. -/
noncomputable def sR2 (p : Par) (s : SE) : ℂ := -0.5 * I * gR2 p s * gR2 p s

/-- `GR_REG3`, propagator.hpp:725-731 (the finiteness assertion is the non-vanishing of the
denominators). -/
noncomputable def gR3 (p : Par) (s : SE) : ℂ :=
  let reg : ℂ := p.v / (p.v + I * p.Lam)
  reg / (g0Rinv p - reg * s.R)

/-- `SR_REG3`, propagator.hpp:733-739. -/
noncomputable def sR3 (p : Par) (s : SE) : ℂ :=
  if |p.v| < 1 / 10 ^ 18 then 0
  else (-I / p.v) * gR3 p s * g0Rinv p * gR3 p s

/-- `GR_REG4`, propagator.hpp:762-767. -/
noncomputable def gR4 (p : Par) (s : SE) : ℂ :=
  p.Lam / (g0Rinv p - s.asymp - p.Lam * (s.R - s.asymp))

/-- `SR_REG4`, propagator.hpp:768-775. -/
noncomputable def sR4 (p : Par) (s : SE) : ℂ :=
  let G := 1 / (g0Rinv p - s.asymp - p.Lam * (s.R - s.asymp))
  (g0Rinv p - s.asymp) * G * G

/-- `GR_REG5`, propagator.hpp:798-802. -/
noncomputable def gR5 (p : Par) (s : SE) : ℂ := 1 / (g0Rinv p - s.R)

/-- `SR_REG5`, propagator.hpp:803-806. -/
def sR5 (_ : Par) (_ : SE) : ℂ := 0

/-- The regulators `REG == 2, 3, 4, 5`. -/
inductive Reg | hyb | freq | inter | temp
  deriving DecidableEq

/-- `GR`, propagator.hpp:233-244. -/
noncomputable def gR : Reg → Par → SE → ℂ
  | .hyb => gR2 | .freq => gR3 | .inter => gR4 | .temp => gR5

/-- `SR`, propagator.hpp:273-283. -/
noncomputable def sR : Reg → Par → SE → ℂ
  | .hyb => sR2 | .freq => sR3 | .inter => sR4 | .temp => sR5

/-! ### Keldysh components; `F` is the distribution factor `Eff_fac` at the frequency -/

/-- `GK`, equilibrium branch, propagator.hpp:252. -/
noncomputable def gKeq (r : Reg) (F : ℝ) (p : Par) (s : SE) : ℂ := I * (F * 2 * (gR r p s).im : ℝ)

/-- `GK`, temperature flow, propagator.hpp:257: the temperature is `Lambda`. -/
noncomputable def gK5 (p : Par) (s : SE) : ℂ :=
  (s.K - I * p.Gam * (fermiFac p.v p.mu p.Lam : ℝ)) * (normSq (gR5 p s) : ℝ)

/-- `GK`, general branch, propagator.hpp:268. -/
noncomputable def gKgen (r : Reg) (F : ℝ) (p : Par) (s : SE) : ℂ :=
  (normSq (gR r p s) : ℝ) * (s.K - I * ((p.Gam + p.Lam) * F : ℝ))

/-- `SK`, equilibrium branch, propagator.hpp:291. -/
noncomputable def sKeq (r : Reg) (F : ℝ) (p : Par) (s : SE) : ℂ := I * (F * 2 * (sR r p s).im : ℝ)

/-- `SK`, temperature flow, propagator.hpp:295-297. -/
noncomputable def sK5 (p : Par) (s : SE) : ℂ :=
  let root := p.Lam * Real.cosh (p.v / (2 * p.Lam))
  I * 0.5 * p.Gam * p.v * (normSq (gR5 p s) : ℝ) / (root * root : ℝ)

/-- `SK`, general branch, propagator.hpp:312-316. -/
noncomputable def sKgen (r : Reg) (F : ℝ) (p : Par) (s : SE) : ℂ :=
  let gr := gR r p s
  let gri := gr.im
  let grn := normSq gr
  s.K * (grn * gri : ℝ) - I * (grn * F * (1 + (p.Gam + p.Lam) * gri) : ℝ)

/-- `Katanin_R`, propagator.hpp:320-323. -/
noncomputable def katR (r : Reg) (p : Par) (s ds : SE) : ℂ := gR r p s * ds.R * gR r p s

/-- `Katanin_K`, propagator.hpp:325-335, for the Keldysh component `gk` in use; without
`USE_FDT_4_SELFENERGY`. -/
noncomputable def katK (r : Reg) (gk : ℂ) (p : Par) (s ds : SE) : ℂ :=
  gR r p s * ds.R * gk + gR r p s * ds.K * (starRingEnd ℂ) (gR r p s)
    + gk * (starRingEnd ℂ) ds.R * (starRingEnd ℂ) (gR r p s)

/-- `diff_Sigma_K_REG5`, propagator.hpp:807-813. -/
noncomputable def diffSigmaK5 (p : Par) (s ds : SE) : ℂ :=
  let root := p.Lam * Real.cosh (p.v / (2 * p.Lam))
  (-I) * p.v * (s.R.im : ℝ) / (root * root : ℝ) + 2 * I * (Real.tanh (p.v / (2 * p.Lam)) : ℝ) * (ds.R.im : ℝ)

/-! ### Matsubara propagators.  With particle-hole symmetry the imaginary parts are stored as real
numbers (`phs = true`), otherwise complex numbers are used. -/

/-- `sign`, math_utils.hpp:24-26. -/
noncomputable def sign (x : ℝ) : ℝ := (if 0 < x then 1 else 0) - (if x < 0 then 1 else 0)

/-- `G0M_inv_SIAM`, propagator.hpp:653-664; `scale` is `M_PI*T`, or 1 at zero temperature. -/
noncomputable def g0Minv (phs : Bool) (scale : ℝ) (p : Par) : ℂ :=
  if phs then (p.v * scale + p.Gam * 0.5 * sign p.v : ℝ)
  else (p.v * scale + p.Gam * 0.5 * sign p.v : ℝ) * I - p.eps

/-- `GM_REG2`, propagator.hpp:694-708. -/
noncomputable def gM2 (phs : Bool) (scale : ℝ) (p : Par) (S : ℂ) : ℂ :=
  if phs then 1 / (g0Minv phs scale p + (p.Lam * 0.5 * sign p.v : ℝ) - S)
  else 1 / (g0Minv phs scale p + I * p.Lam * 0.5 * (sign p.v : ℝ) - S)

/-- `SM_REG2`, propagator.hpp:711-720. -/
noncomputable def sM2 (phs : Bool) (scale : ℝ) (p : Par) (S : ℂ) : ℂ :=
  let G := gM2 phs scale p S
  if phs then -0.5 * G * G * (sign p.v : ℝ) else -0.5 * I * G * G * (sign p.v : ℝ)

/-- `GM_REG3`, propagator.hpp:744-749. -/
noncomputable def gM3 (phs : Bool) (scale : ℝ) (p : Par) (S : ℂ) : ℂ :=
  let reg := p.v * p.v / (p.v * p.v + p.Lam * p.Lam)
  1 / (g0Minv phs scale p / (reg : ℝ) - S)

/-- `SM_REG3`, propagator.hpp:751-757 (`v ≠ 0` is asserted). -/
noncomputable def sM3 (phs : Bool) (scale : ℝ) (p : Par) (S : ℂ) : ℂ :=
  let G := gM3 phs scale p S
  ((-2 * p.Lam / (p.v * p.v) : ℝ) : ℂ) * G * g0Minv phs scale p * G

/-- `GM_REG4`, propagator.hpp:777-782. -/
noncomputable def gM4 (phs : Bool) (scale : ℝ) (p : Par) (S : ℂ) : ℂ :=
  p.Lam / (g0Minv phs scale p - p.Lam * S)

/-- `SM_REG4`, propagator.hpp:784-793 (`v ≠ 0` is asserted). -/
noncomputable def sM4 (phs : Bool) (scale : ℝ) (p : Par) (S : ℂ) : ℂ :=
  let G := 1 / (g0Minv phs scale p - p.Lam * S)
  g0Minv phs scale p * G * G

/-! ### The matrix of components, `valsmooth_vectorized`, propagator.hpp:508-635 -/

/-- Keldysh basis: `(0, A; R, K)`. -/
noncomputable def keldyshMatrix (R K : ℂ) : Fin 2 → Fin 2 → ℂ :=
  ![![0, (starRingEnd ℂ) R], ![R, K]]

/-- Contour basis (`CONTOUR_BASIS == 1`). -/
noncomputable def contourMatrix (R K : ℂ) : Fin 2 → Fin 2 → ℂ :=
  let A := (starRingEnd ℂ) R
  ![![0.5 * (A + R + K), 0.5 * (A - R + K)], ![0.5 * (-A + R + K), 0.5 * (-A - R + K)]]

/-- Retarded and Keldysh component for the propagator types, propagator.hpp:357-503: `g`, `s`, `e` and
`k` (a pair of components each). -/
def typeRK (g s e : ℂ × ℂ) : Char → Res (ℂ × ℂ)
  | 'g' => .ok g
  | 's' => .ok s
  | 'k' => .ok (s + e)
  | 'e' => .ok e
  | _ => .error .assertion

end Verif.Propagator
