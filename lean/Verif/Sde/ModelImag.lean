import Verif.ImagFlow.Model
import Verif.Parquet.Model

/-
The parquet iteration at imaginary frequencies and finite temperature: `compute_BSE`, `compute_SDE` and
`parquet_iteration`, /repo/source/perturbation_theory_and_parquet/parquet_solver.hpp:27-354, 478-489, applied to the
bubbles and propagators of Verif.ImagFlow (with its simplifications). Versions 1 and 2 of the Schwinger–Dyson equation.
Values are elements of a ring `R`: complex numbers, or with `PARTICLE_HOLE_SYMM` real numbers (the imaginary parts of
self-energy and, up to sign, propagator).
-/
namespace Verif.Sde.Imag
open Verif.Symmetries Verif.ImagFlow
open Verif.Freqs (Ch Fr)

/-- What does not depend on the state besides `ImagFlow.Setup`: flow parameter, interaction, end points of the frequency
grid. -/
structure Setup (R : Type) where
  core : ImagFlow.Setup R
  Λ : ℝ
  U : ℝ
  ends : ℤ × ℤ

section
variable {R : Type} [CommRing R] [StarRing R] [Algebra ℝ R]

/-- The part of a vertex reducible in one channel: spin component, Keldysh indices (not used), energies. -/
abbrev Part (R : Type) : Type := Nat → (Fin 4 → Bool) → (Fin 4 → ℤ) → R

/-- `IntegrandSE::Matsubara_value`, integrandSE.hpp:340-355, with the vertex of integrandSE.hpp:434-441: one spin component
in channel `t` (version 0), or the sum of the two in channel `a` (version 1), at transfer frequency 0. -/
def integrand (version ph : Bool) (Γ : Part R) (G : ℤ → R) (v vp : ℤ) : R :=
  let at' := legFun (legsR (fun w => w / 2) (if version then .a else .t) ⟨0, vp, v⟩)
  let factor := if version then Γ 0 Imag.k0 at' + Γ 1 Imag.k0 at' else Γ 0 Imag.k0 at'
  if ph then -(G vp * factor) else G vp * factor

/-- `compute_Matsubara_finiteT`, loop.hpp:459-471, and the sign of version 1, line 514; a failing sum ends the program. -/
def loopRes (version : Bool) (u : ImagFlow.Setup R) (Γ : Part R) (G : ℤ → R) (v : ℤ) : Res R := do
  let lim := MatSum.loopLimits u.pos
  let x ← MatSum.matsubaraSum (integrand version u.ph Γ G v) lim.1 lim.2
  return (if version then -1 else 1) * -(u.T • x)

/-- `loop<false, version>` as a function of frequency, up to line 515. -/
def loopOne (version : Bool) (u : ImagFlow.Setup R) (Γ : Part R) (G : ℤ → R) : SF R := fun v =>
  match loopRes version u Γ G v with
  | .ok x => x
  | .error _ => 0

/-- The real part. -/
noncomputable def realPart (x : R) : R := (0.5 : ℝ) • (x + star x)

/-- The end of `loop` without particle-hole symmetry, loop.hpp:518-528; what is split off becomes the asymptotic value,
which `compute_SDE` overwrites. -/
noncomputable def split (u : Setup R) (σ : SF R) : SF R :=
  if u.core.ph then σ else fun v => σ v - realPart ((0.5 : ℝ) • (σ u.ends.1 + σ u.ends.2))

/-- Mean of the bubbles with the bare vertex on the left and on the right, parquet_solver.hpp:99-132. -/
noncomputable def meanBub (u : Setup R) (bare Γ : VF R) (P : ℤ → ℤ → R) : VF R :=
  (0.5 : ℝ) • (bub u.core bare Γ P + bub u.core Γ bare P)

/-- `compute_SDE_impl<channel>`, parquet_solver.hpp:89-155. -/
noncomputable def closed (u : Setup R) (bare : VF R) (σ : SF R) (Γ : VF R) (c : Ch) : SF R :=
  split u (loopOne (c == .t) u.core ((meanBub u bare Γ (pair u.core u.Λ σ)) false c) (lineG u.core u.Λ σ))

/-- `compute_SDE_v1`, parquet_solver.hpp:158-203. -/
noncomputable def equation1 (u : Setup R) (bare : VF R) (σ : SF R) (V : VF R) : SF R :=
  closed u bare σ (bare + V) .a + closed u bare σ (bare + V) .p + closed u bare σ (bare + V) .t -
    (2 : ℝ) • closed u bare σ bare .a

/-- `compute_SDE_impl_v2`, parquet_solver.hpp:215-226. -/
noncomputable def equation2 (u : Setup R) (bare : VF R) (σ : SF R) (V : VF R) : SF R :=
  (0.5 : ℝ) • (closed u bare σ (full bare V) .a + closed u bare σ (full bare V) .p)

/-- The part of the self-energy that depends on frequency; `first` for version 1 of the equation. -/
noncomputable def dynamic (first : Bool) (u : Setup R) (bare : VF R) (σ : SF R) (V : VF R) : SF R :=
  if first then equation1 u bare σ V else equation2 u bare σ V

/-- `SelfEnergy::initialize` sets the asymptotic value, which is added to every value that is read,
selfenergy.hpp:159-163, 207-224. -/
def shift (h : ℝ) (σ : SF R) : SF R := fun v => σ v + algebraMap ℝ R h

/-- `compute_SDE`, parquet_solver.hpp:328-354: with particle-hole symmetry the asymptotic value is half the interaction,
although in this case only imaginary parts are stored. -/
noncomputable def computeSDE (first : Bool) (u : Setup R) (hartree : SF R → ℝ) (bare : VF R) (σ : SF R) (V : VF R) : SF R :=
  shift (if u.core.ph then u.U / 2 else hartree σ) (dynamic first u bare σ V)

/-- `compute_BSE`, parquet_solver.hpp:27-60. -/
noncomputable def computeBSE (u : Setup R) (bare : VF R) (σ : SF R) (V : VF R) : VF R :=
  (0.5 : ℝ) • (bub u.core (bare + others V) (full bare V) (pair u.core u.Λ σ) +
    bub u.core (full bare V) (bare + others V) (pair u.core u.Λ σ))

/-- `parquet_iteration`, parquet_solver.hpp:478-489. -/
noncomputable def iteration (first : Bool) (u : Setup R) (hartree : SF R → ℝ) (bare : VF R) (y : SF R × VF R) : SF R × VF R :=
  (computeSDE first u hartree bare y.1 y.2, computeBSE u bare y.1 y.2)

/-- `parquet_solver` with these equations. -/
noncomputable def problem (first : Bool) (u : Setup R) (hartree : SF R → ℝ) (bare : VF R)
    (upd : List ((SF R × VF R) × (SF R × VF R)) → ℝ → SF R × VF R) (relV relS : SF R × VF R → SF R × VF R → Option ℝ) :
    Parquet.Problem (SF R × VF R) :=
  ⟨iteration first u hartree bare, upd, relV, relS⟩

/-- `State::initialize` at imaginary frequencies, /repo/source/correlation_functions/state.hpp:148-170: the asymptotic value
of the self-energy is 0 with particle-hole symmetry and the Hartree term otherwise; no reducible vertex. -/
def initial (ph : Bool) (hartree : ℝ) : SF R × VF R := (fun _ => algebraMap ℝ R (if ph then 0 else hartree), 0)

end
end Verif.Sde.Imag
