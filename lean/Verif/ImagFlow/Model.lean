import Verif.Imag.Model
import Verif.Propagator.Model
import Verif.MfRG.Model
import Verif.ODE.Model
import Mathlib.Algebra.Module.Pi
import Mathlib.Algebra.Module.Prod
import Mathlib.Algebra.Star.Module
import Mathlib.Analysis.Complex.Basic

/-
The right-hand side of the flow at imaginary frequencies and finite temperature with the diagrams themselves: the driver
of Verif.MfRG (/repo/source/mfRG_flow/right_hand_sides.hpp:172-555) applied to bubbles (Verif.Imag), loops
(/repo/source/loop/loop.hpp) and propagators (Verif.Propagator), and the steps of the flow (Verif.ODE). Frequencies are
integers in units of `π T`; vertices are functions of the energies of the legs and self-energies functions of frequency
instead of being interpolated; the analytic corrections for the tails of the sums in the bubbles are left out.
`SBE_DECOMPOSITION == 0`, `DEBUG_SYMMETRIES == 1`, `KATANIN` defined. Values are elements of a ring `R`: complex numbers,
or with `PARTICLE_HOLE_SYMM` real numbers (the imaginary parts of self-energy and, up to sign, propagator).
-/
namespace Verif.ImagFlow
open Verif.Symmetries
open Verif.Freqs (Ch Fr)

/-- Reducible vertices: half, channel, spin component, Keldysh indices (not used), energies. -/
abbrev VF (R : Type) : Type := Bool → Ch → Nat → (Fin 4 → Bool) → (Fin 4 → ℤ) → R

/-- A self-energy. -/
abbrev SF (R : Type) : Type := ℤ → R

/-- Propagator and single-scale propagator at flow parameter, frequency and value of the self-energy,
/repo/source/correlation_functions/two_point/propagator.hpp:338-353. -/
structure Lines (R : Type) where
  g : ℝ → ℤ → R → R
  s : ℝ → ℤ → R → R

/-- Compile-time choices and temperature: `POSINTRANGE`, `T`, `PARTICLE_HOLE_SYMM`, regulator. -/
structure Setup (R : Type) where
  pos : Nat
  T : ℝ
  ph : Bool
  lines : Lines R

section
variable {R : Type} [CommRing R] [StarRing R] [Algebra ℝ R]

/-- The two halves exchanged. -/
def mirror (V : VF R) : VF R := fun h => V (!h)

/-- The bubble of `L` and `M` in every channel and its mirror image: `Verif.Imag.bubble` with the prefactor
`(2 π T) / (2 π)` of bubble_function.hpp:446-447, 900-905. -/
noncomputable def bub (u : Setup R) (L M : VF R) (P : ℤ → ℤ → R) : VF R :=
  u.T • (Imag.bubble (Imag.finiteTotal u.pos) ⟨L⟩ ⟨M⟩ P).val

/-- The sum of the bare vertex and all reducible ones, as seen from any channel; a vertex of symmetric type stores its
first half only, vertex.hpp:857-860. -/
def full (bare V : VF R) : VF R := fun _ c s α ν =>
  bare false c s α ν + (V false .a s α ν + V false .p s α ν + V false .t s α ν)

/-- A vertex of type `symmetric_r_irred` inside a bubble of channel `c`: the parts reducible in the other channels,
vertex.hpp:906-978; first half only. -/
def others (T : VF R) : VF R := fun _ c s α ν =>
  match c with
  | .a => T false .p s α ν + T false .t s α ν
  | .p => T false .a s α ν + T false .t s α ν
  | .t => T false .a s α ν + T false .p s α ν

/-- A vertex of non-symmetric type from the first halves of two vertices, vertex.hpp:848-850,
right_hand_sides.hpp:331, 364. -/
def halves (A B : VF R) : VF R := fun h => if h then B false else A false

/-- `IntegrandSE::Matsubara_value`, integrandSE.hpp:340-355, with the vertex of integrandSE.hpp:410-432 (both spin
components, channel `t`, transfer frequency 0). -/
def integrand (ph : Bool) (Γ : VF R) (G : ℤ → R) (v vp : ℤ) : R :=
  let at' := legFun (legsR (fun w => w / 2) .t ⟨0, vp, v⟩)
  let factor := Γ false .t 0 Imag.k0 at' * 2 + Γ false .t 1 Imag.k0 at'
  if ph then -(G vp * factor) else G vp * factor

/-- `compute_Matsubara_finiteT`, loop.hpp:459-471: minus `T` times the sum; a failing sum ends the program. -/
def loopRes (u : Setup R) (Γ : VF R) (G : ℤ → R) (v : ℤ) : Res R := do
  let lim := MatSum.loopLimits u.pos
  let x ← MatSum.matsubaraSum (integrand u.ph Γ G v) lim.1 lim.2
  return -(u.T • x)

/-- `loop<true,0>` as a function of frequency. -/
def loop (u : Setup R) (Γ : VF R) (G : ℤ → R) : SF R := fun v =>
  match loopRes u Γ G v with
  | .ok x => x
  | .error _ => 0

/-- Propagator, type `g`, propagator.hpp:392. -/
def lineG (u : Setup R) (Λ : ℝ) (σ : SF R) (v : ℤ) : R := u.lines.g Λ v (σ v)

/-- Extension of the propagator by a self-energy, type `e`, propagator.hpp:493. -/
def lineE (u : Setup R) (Λ : ℝ) (σ dσ : SF R) (v : ℤ) : R := lineG u Λ σ v * dσ v * lineG u Λ σ v

/-- Single-scale propagator with extension, type `k`, propagator.hpp:462-464; type `s` for `dσ = 0`. -/
def lineS (u : Setup R) (Λ : ℝ) (σ dσ : SF R) (v : ℤ) : R := u.lines.s Λ v (σ v) + lineE u Λ σ dσ v

/-- What the model leaves open: extraction of the K2 component of the first half together with the part of the second half
that is its mirror image, acceleration, and norms. -/
structure Open (R : Type) where
  k2 : VF R → VF R
  accel : List (VF R × SF R) → List (VF R × SF R) → SF R
  absV : VF R → Option ℚ
  relV : VF R → VF R → Option ℚ
  absS : SF R → Option ℚ
  relS : SF R → SF R → Option ℚ

/-- Extraction of the K2b component of the first half together with the corresponding part of the second half. -/
def Open.k2b (o : Open R) (V : VF R) : VF R := mirror (o.k2 (mirror V))

variable (u : Setup R) (o : Open R) (Λ : ℝ) (bare : VF R) (σ : SF R) (V : VF R)

/-- The pair of propagators. -/
def pair : ℤ → ℤ → R := Imag.pairOf u.ph false (lineG u Λ σ) (lineG u Λ σ)

/-- The differentiated pair with the derivative `dσ` of the self-energy. -/
def dpair (dσ : SF R) : ℤ → ℤ → R := Imag.pairOf u.ph true (lineG u Λ σ) (lineS u Λ σ dσ)

/-- `calculate_dGammaC_right_insertion`, right_hand_sides.hpp:774-797, of the vertex with first half `L` and second half
`M` (line 331). As the right vertex of a bubble a vertex is read through its second argument, so the halves are handed
over exchanged. -/
noncomputable def centralRight (L M : VF R) : VF R := bub u (full bare V) (mirror (halves L M)) (pair u Λ σ)

/-- `calculate_dGammaC_left_insertion`, right_hand_sides.hpp:804-827, of the vertex with first half `M` and second half
`L` (line 364). -/
noncomputable def centralLeft (L M : VF R) : VF R := bub u (halves M L) (full bare V) (pair u Λ σ)

/-- The mean of the two central parts after overwriting K2 and K2b, right_hand_sides.hpp:381-394. -/
noncomputable def central (L M : VF R) : VF R :=
  let cr := centralRight u Λ bare σ V L M
  let cl := centralLeft u Λ bare σ V L M
  let cl' := cl - o.k2 cl + o.k2 cr
  let cr' := cr - o.k2b cr + o.k2b cl'
  (0.5 : ℝ) • (cr' + cl')

/-- `selfEnergyFlowCorrections`, right_hand_sides.hpp:839-856. -/
def corr (C : VF R) : SF R :=
  let tbar := loop u (others C) (lineG u Λ σ)
  let t := loop u (full bare V) (lineE u Λ σ tbar)
  tbar + t

/-- The diagrams for the state `(σ, V)`, right_hand_sides.hpp:588-856. -/
noncomputable def eqs : MfRG.Eqs (VF R) (SF R) where
  oneSE := loop u (full bare V) (lineS u Λ σ 0)
  one dσ := bub u (full bare V) (full bare V) (dpair u Λ σ dσ)
  left T := bub u (others T) (full bare V) (pair u Λ σ)
  right T := bub u (full bare V) (others T) (pair u Λ σ)
  central := central u o Λ bare σ V
  reorder := id
  corr := corr u Λ bare σ V
  accel := o.accel
  absV := o.absV
  relV := o.relV
  absS := o.absS
  relS := o.relS

/-- The right-hand side of the flow at `Λ` as a function of the state (self-energy, vertex); a failing evaluation ends the
program and is represented by zero here. -/
noncomputable def rhs (cfg : MfRG.Cfg) (y : SF R × VF R) (Λ : ℝ) : SF R × VF R :=
  match MfRG.rhs (eqs u o Λ bare y.1 y.2) cfg with
  | .ok x => (x.sigma, x.vertex)
  | .error _ => 0

/-- Accepted steps of the flow one after the other: position and width of each. -/
noncomputable def flow (cfg : MfRG.Cfg) (T : ODE.Tableau) (fp : ODE.FlowParam ℝ) (steps : List (ℝ × ℝ))
    (y : SF R × VF R) : SF R × VF R :=
  steps.foldl (fun y s => (ODE.rkStep T fp (rhs u o bare cfg) y (rhs u o bare cfg y (fp.lam s.1)) s.1 s.2).1) y

end

/-- The regulators available at imaginary frequencies, propagator.hpp:338-353. -/
inductive Reg | r2 | r3 | r4
deriving DecidableEq

/-- The propagators of the code for complex values; frequencies are given in units of `π T`. -/
noncomputable def linesC (reg : Reg) (p : Propagator.Par) : Lines ℂ :=
  let at' := fun (Λ : ℝ) (v : ℤ) => ({ p with Lam := Λ, v := v } : Propagator.Par)
  let c := Real.pi * p.T
  match reg with
  | .r2 => ⟨fun Λ v => Propagator.gM2 false c (at' Λ v), fun Λ v => Propagator.sM2 false c (at' Λ v)⟩
  | .r3 => ⟨fun Λ v => Propagator.gM3 false c (at' Λ v), fun Λ v => Propagator.sM3 false c (at' Λ v)⟩
  | .r4 => ⟨fun Λ v => Propagator.gM4 false c (at' Λ v), fun Λ v => Propagator.sM4 false c (at' Λ v)⟩

/-- The propagators of the code with particle-hole symmetry, where values are real. -/
noncomputable def linesR (reg : Reg) (p : Propagator.Par) : Lines ℝ :=
  let at' := fun (Λ : ℝ) (v : ℤ) => ({ p with Lam := Λ, v := v } : Propagator.Par)
  let c := Real.pi * p.T
  match reg with
  | .r2 => ⟨fun Λ v s => (Propagator.gM2 true c (at' Λ v) s).re, fun Λ v s => (Propagator.sM2 true c (at' Λ v) s).re⟩
  | .r3 => ⟨fun Λ v s => (Propagator.gM3 true c (at' Λ v) s).re, fun Λ v s => (Propagator.sM3 true c (at' Λ v) s).re⟩
  | .r4 => ⟨fun Λ v s => (Propagator.gM4 true c (at' Λ v) s).re, fun Λ v s => (Propagator.sM4 true c (at' Λ v) s).re⟩

end Verif.ImagFlow
