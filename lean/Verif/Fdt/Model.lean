import Verif.Propagator.Model
import Verif.Freqs.Model

/-
Model of /repo/source/postprocessing/causality_FDT_checks.hpp (finite temperature, Keldysh basis) and of the formulas of
`check_FDTs_for_slices_through_fullvertex`, /repo/source/postprocessing/postprocessing.c++:260-375.
The chemical potential `glb_mu` is zero as in the repository.  A vertex is given by its stored components at the grid
points: `valsmooth` at a grid point returns the stored component (C39).  The parallel loops write distinct cells and read
only `vertex_in`, so they are modelled cell by cell.
-/
namespace Verif.Fdt
open Complex Propagator
open Freqs (Ch)

/-- Complex conjugation, `myconj`. -/
noncomputable abbrev cc (z : ℂ) : ℂ := (starRingEnd ℂ) z

/-- `Fermi_fac(v, glb_mu, T)`. -/
noncomputable def fac (v T : ℝ) : ℝ := fermiFac v 0 T

/-! ### First class: causality_FDT_checks.hpp:207-296 -/

/-- The component written by the first block: lines 214, 242 and 272. -/
def slotK1 : Ch → Nat
  | .a => 3
  | .p => 5
  | .t => 3

/-- `G2 = N1 * (myconj(G1) - G1)` with `N1 = 1. / Fermi_fac(w, glb_mu, T)`: lines 223-229, 251-258 and 281-288. -/
noncomputable def valueK1 (T w : ℝ) (K : Nat → ℂ) : ℂ := ((1 / fac w T : ℝ) : ℂ) * (cc (K 1) - K 1)

/-- One cell (all Keldysh components of one frequency, spin and internal index). -/
noncomputable def cellK1 (ch : Ch) (T w : ℝ) (K : Nat → ℂ) : Nat → ℂ := fun iK =>
  if |w| > T * 25 ∧ iK = slotK1 ch then valueK1 T w K else K iK

/-- The loops: `itspin < n_in` and `itin < n_in`; `K spin iw iK i_in`. -/
noncomputable def computeK1 (ch : Ch) (nw nIn : Nat) (freq : Nat → ℝ) (T : ℝ) (K : Nat → Nat → Nat → Nat → ℂ) :
    Nat → Nat → Nat → Nat → ℂ := fun spin iw iK iin =>
  if iw < nw ∧ spin < nIn ∧ iin < nIn then cellK1 ch T (freq iw) (fun k => K spin iw k iin) iK else K spin iw iK iin

/-! ### Second class: lines 299-468 -/

/-- `G123` of the second class. -/
noncomputable def three123 (N1 N2 N3 : ℝ) (G1 G2 G3 : ℂ) : ℂ :=
  cc (G1 + G2 + G3) + ((G1 * N2 * N3 + N1 * G2 * N3 + N1 * N2 * G3).re : ℂ) * 2

/-- `G12`. -/
noncomputable def three12 (N1 N2 : ℝ) (G1 G2 G3 : ℂ) : ℂ := N2 * (cc G3 - G1) + N1 * (cc G3 - G2)

/-- `G13`. -/
noncomputable def three13 (N1 N3 : ℝ) (G1 G2 G3 : ℂ) : ℂ := N3 * (cc G2 - G1) + N1 * (cc G2 - G3)

/-- `G23`. -/
noncomputable def three23 (N2 N3 : ℝ) (G1 G2 G3 : ℂ) : ℂ := N3 * (cc G1 - G2) + N2 * (cc G1 - G3)

/-- One cell of the second class: lines 319-352 (a), 375-408 (p), 431-462 (t). -/
noncomputable def cellK2 (ch : Ch) (T w v : ℝ) (K : Nat → ℂ) : Nat → ℂ := fun iK =>
  if |w| > T then
    match ch with
    | .a =>
      let N1 := fac (-v - w / 2) T
      let N2 := fac (v - w / 2) T
      let N3 := 1 / fac w T
      if iK = 0 then three12 N1 N2 (K 8) (K 1) (K 11)
      else if iK = 2 then three123 N1 N2 N3 (K 8) (K 1) (K 11)
      else if iK = 3 then three23 N2 N3 (K 8) (K 1) (K 11)
      else K iK
    | .p =>
      let N1 := fac (v + w / 2) T
      let N2 := fac (-v + w / 2) T
      let N3 := 1 / fac (-w) T
      if iK = 0 then three12 N1 N2 (K 4) (K 8) (K 13)
      else if iK = 1 then three123 N1 N2 N3 (K 4) (K 8) (K 13)
      else if iK = 5 then three13 N1 N3 (K 4) (K 8) (K 13)
      else K iK
    | .t =>
      let N1 := fac (-v - w / 2) T
      let N2 := fac (v - w / 2) T
      let N3 := 1 / fac w T
      if iK = 0 then three12 N1 N2 (K 4) (K 1) (K 7)
      else if iK = 2 then three123 N1 N2 N3 (K 4) (K 1) (K 7)
      else if iK = 3 then three23 N2 N3 (K 4) (K 1) (K 7)
      else K iK
  else K iK

/-- The loops: again `itspin < n_in`; `K spin iw iv iK i_in`, `freq iw iv` the frequencies of the grid point. -/
noncomputable def computeK2 (ch : Ch) (nw nv nIn : Nat) (freq : Nat → Nat → ℝ × ℝ) (T : ℝ)
    (K : Nat → Nat → Nat → Nat → Nat → ℂ) : Nat → Nat → Nat → Nat → Nat → ℂ := fun spin iw iv iK iin =>
  if iw < nw ∧ iv < nv ∧ spin < nIn ∧ iin < nIn then
    cellK2 ch T (freq iw iv).1 (freq iw iv).2 (fun k => K spin iw iv k iin) iK
  else K spin iw iv iK iin

/-! ### Third class: lines 470-757 -/

/-- `G123` of the third class, lines 534-540. -/
noncomputable def four123 (N1 N2 N3 : ℝ) (G1 G2 G3 G4 G12 G13 G23 : ℂ) : ℂ :=
  (1 + N1 * N2 + N1 * N3 + N2 * N3) * cc G4
    - (G1 * N2 * N3 + N1 * G2 * N3 + N1 * N2 * G3 + N1 * G23 + G12 * N3 + G13 * N2)

/-- `G1234`, lines 541-554. -/
noncomputable def four1234 (N1 N2 N3 N4 : ℝ) (G1 G2 G3 G4 G12 G13 G14 G23 G24 G34 : ℂ) : ℂ :=
  G1 * N2 * N3 * N4 * 2 + N1 * G2 * N3 * N4 * 2 + N1 * N2 * G3 * N4 * 2 + N1 * N2 * N3 * G4 * 2
    + (N2 * N3 * N4 + N2 + N3 + N4) * cc G1 + (N1 * N3 * N4 + N1 + N3 + N4) * cc G2
    + (N1 * N2 * N4 + N1 + N2 + N4) * cc G3 + (N1 * N2 * N3 + N1 + N2 + N3) * cc G4
    + N3 * N4 * G12 + N2 * N4 * G13 + N2 * N3 * G14 + N1 * N4 * G23 + N1 * N3 * G24 + N1 * N2 * G34

/-- The factors `N1`, `N2`, `N3`, `N4`: lines 489-492 (a), 582-585 (p) and the corresponding lines for t. -/
noncomputable def facK3 (ch : Ch) (T w v vp : ℝ) : ℝ × ℝ × ℝ × ℝ :=
  match ch with
  | .a => (fac (v - w / 2) T, fac (vp + w / 2) T, fac (-vp + w / 2) T, fac (-v - w / 2) T)
  | .p => (fac (v + w / 2) T, fac (-v + w / 2) T, fac (-vp - w / 2) T, fac (vp - w / 2) T)
  | .t => (fac (vp + w / 2) T, fac (v - w / 2) T, fac (-vp + w / 2) T, fac (-v - w / 2) T)

/-- One cell of the third class. -/
noncomputable def cellK3 (ch : Ch) (T w v vp : ℝ) (K : Nat → ℂ) : Nat → ℂ := fun iK =>
  let N := facK3 ch T w v vp
  if iK = 0 then four1234 N.1 N.2.1 N.2.2.1 N.2.2.2 (K 7) (K 11) (K 13) (K 14) (K 3) (K 5) (K 6) (K 9) (K 10) (K 12)
  else if iK = 1 then four123 N.1 N.2.1 N.2.2.1 (K 7) (K 11) (K 13) (K 14) (K 3) (K 5) (K 9)
  else K iK

/-- The loops: here `itspin < n_spin`; the number `nvp` of values of the third frequency depends on the grid. -/
noncomputable def computeK3 (ch : Ch) (nw nv nvp nSpin nIn : Nat) (freq : Nat → Nat → Nat → ℝ × ℝ × ℝ) (T : ℝ)
    (K : Nat → Nat → Nat → Nat → Nat → Nat → ℂ) : Nat → Nat → Nat → Nat → Nat → Nat → ℂ :=
  fun spin iw iv ivp iK iin =>
  if iw < nw ∧ iv < nv ∧ ivp < nvp ∧ spin < nSpin ∧ iin < nIn then
    cellK3 ch T (freq iw iv ivp).1 (freq iw iv ivp).2.1 (freq iw iv ivp).2.2 (fun k => K spin iw iv ivp k iin) iK
  else K spin iw iv ivp iK iin

/-! ### Slices of the full vertex, postprocessing.c++:260-375 -/

/-- The sixteen components `FDT_results(iLambda, iv, ivp, iK)`, lines 327-364; `G` the value of the full vertex at
transfer frequency zero in the transverse channel. -/
noncomputable def slice (T v vp : ℝ) (G : Nat → ℂ) (iK : Nat) : ℂ :=
  let tv := Real.tanh ((v - 0) / (2 * T))
  let tvp := Real.tanh ((vp - 0) / (2 * T))
  let cv := Real.cosh ((v - 0) / (2 * T))
  let cvp := Real.cosh ((vp - 0) / (2 * T))
  match iK with
  | 0 => I * (2 * tvp * (1 + tv * tv) * (G 7).im - tv * tv * (G 5).im + 2 * tv * (1 + tvp * tvp) * (G 11).im
      - tvp * tvp * (G 10).im + 2 * tv * tvp * ((G 12).im - (G 9).im) : ℝ)
  | 1 => G 11 + tvp * (G 3 - G 9) + 2 * I * tv * tvp * (G 7).im - I * tv * (G 5).im
  | 2 => G 7 + tv * (G 3 - G 6) + 2 * I * tv * tvp * (G 11).im - I * tvp * (G 10).im
  | 4 => G 14 + tvp * (G 6 - G 12) - 2 * I * tv * tvp * (G 7).im + I * tv * (G 5).im
  | 5 => (cv * cv) / (cvp * cvp) * G 10 + 2 * I * tvp * (G 7).im - 2 * I * tv * (cv * cv) / (cvp * cvp) * (G 11).im
  | 8 => G 13 + tv * (G 9 - G 12) - 2 * I * tv * tvp * (G 11).im + I * tvp * (G 10).im
  | 9 => -cc (G 6)
  | 12 => -cc (G 3)
  | 15 => 0
  | k => G k

/-! ### Zero temperature in the contour basis -/

/-- `is_zero_due_to_FDTs`, r_vertex.hpp:532-563 (`ZERO_T`); the contour indices are the binary digits of `iK`. -/
noncomputable def zeroByFDT (ch : Ch) (iK : Nat) (w v vp : ℝ) : Bool :=
  let f : ℝ × ℝ × ℝ × ℝ := match ch with
    | .a => (v - w / 2, vp + w / 2, -(vp - w / 2), -(v + w / 2))
    | .p => (v + w / 2, -v + w / 2, -(vp + w / 2), -(-vp + w / 2))
    | .t => (vp + w / 2, v - w / 2, -(vp - w / 2), -(v + w / 2))
  let s := ((iK / 8 % 2 : Nat) : ℝ) * f.1 + ((iK / 4 % 2 : Nat) : ℝ) * f.2.1 + ((iK / 2 % 2 : Nat) : ℝ) * f.2.2.1
    + ((iK % 2 : Nat) : ℝ) * f.2.2.2
  decide (s < 1 / 10 ^ 15 ∧ ¬(iK = 0 ∨ iK = 15))

/-! ### Self-energy -/

/-- `check_FDTs_selfenergy`, lines 91-132: the returned self-energy; `S iK iv i_in`. -/
noncomputable def selfFDT (nv nIn : Nat) (freq : Nat → ℝ) (T : ℝ) (S : Nat → Nat → Nat → ℂ) : Nat → Nat → Nat → ℂ :=
  fun iK iv iin =>
  if iK = 1 ∧ iv < nv ∧ iin < nIn then I * 2 * (effFac true (freq iv) T 0 0 : ℝ) * ((S 0 iv iin).im : ℝ)
  else S iK iv iin

/-- `channel == 'p' ? 5 : 3`, line 151. -/
def slotCheck : Ch → Nat
  | .p => 5
  | _ => 3

/-- `check_FDTs_K1`, lines 135-176: the difference `Im_K1_R_from_data - Im_K1_R_from_FDTs` at one grid point. -/
noncomputable def diffK1 (ch : Ch) (T w : ℝ) (K : Nat → ℂ) : ℂ :=
  ((K 1).im : ℂ) - I * (1 / 2) * (effFac true w T 0 0 : ℝ) * K (slotCheck ch)

end Verif.Fdt
