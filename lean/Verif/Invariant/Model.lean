import Verif.Heredity.PropsLines
import Verif.Loop.Model
import Verif.MfRG.Model
import Verif.ODE.Model
import Mathlib.Algebra.Module.Pi
import Mathlib.Algebra.Module.Prod
import Mathlib.Analysis.Complex.Basic

/-
The right-hand side of the flow with the diagrams themselves: the driver of Verif.MfRG
(/repo/source/mfRG_flow/right_hand_sides.hpp:172-555) applied to bubbles (Verif.Heredity), loops (Verif.Loop) and
propagators (Verif.Propagator), and the steps of the flow (Verif.ODE). Vertices are functions of the energies of the legs
and self-energies functions of frequency instead of being interpolated between grid points; the integrals are exact. With
the symmetry-related entries of a bubble this is what the code computes by C149. Real frequencies, `REG == 2`,
equilibrium, `SBE_DECOMPOSITION == 0`, `DEBUG_SYMMETRIES == 1`, `KATANIN` defined.
-/
namespace Verif.Invariant
open Verif.Symmetries Verif.Heredity Verif.Propagator
open Verif.Freqs (Ch Fr legs)

/-- Reducible vertices: half, channel, spin component, Keldysh indices, energies. The vertex itself is half `false`, its
mirror image is half `true`. -/
abbrev VF : Type := Bool → Ch → Nat → (Fin 4 → Bool) → (Fin 4 → ℝ) → ℂ

/-- A self-energy: retarded and Keldysh component. -/
abbrev SF : Type := (ℝ → ℂ) × (ℝ → ℂ)

/-- The values of a self-energy as the propagators read them (the asymptotic value plays no role for `REG == 2`). -/
def SF.at (σ : SF) (v : ℝ) : SE := ⟨σ.1 v, σ.2 v, 0⟩

/-- The bubble of `L` and `R` in every channel, and its mirror image. -/
noncomputable def bub (L R : VF) (P : Pair) : VF := (bubble ⟨L⟩ ⟨R⟩ P).val

/-- The two halves exchanged. -/
def mirror (V : VF) : VF := fun h => V (!h)

/-- The sum of the bare vertex and all reducible ones, as seen from any channel. A vertex of symmetric type stores its
first half only, vertex.hpp:857-860. -/
noncomputable def full (bare V : VF) : VF := fun _ c s α ν =>
  bare false c s α ν + (V false .a s α ν + V false .p s α ν + V false .t s α ν)

/-- A vertex of type `symmetric_r_irred` inside a bubble of channel `c`: the parts reducible in the other channels,
vertex.hpp:906-978; first half only. -/
noncomputable def others (T : VF) : VF := fun _ c s α ν =>
  match c with
  | .a => T false .p s α ν + T false .t s α ν
  | .p => T false .a s α ν + T false .t s α ν
  | .t => T false .a s α ν + T false .p s α ν

/-- A vertex of non-symmetric type from the first halves of two vertices, vertex.hpp:848-850,
right_hand_sides.hpp:331, 364. -/
def halves (A B : VF) : VF := fun h => if h then B false else A false

/-- `loop<true,0>`, loop.hpp:500-528 with integrandSE.hpp:299-323 and 410-441: the vertex is read in channel `t` at
transfer frequency 0. `Δ` sets the limits of the integral. -/
noncomputable def loop (Δ : ℝ) (Γ : VF) (G : ℝ → Keldysh.Prop2 ℂ) : SF :=
  let F : ℝ → ℝ → Fin 4 → ℂ := fun v vp => Loop.row false true (G vp).matrix
    fun s iK => Γ false .t s (bits iK) (legFun (legs (.ch .t) ⟨0, vp, v⟩))
  (fun v => (Loop.keldyshLoop (F v) Δ v).1, fun v => (Loop.keldyshLoop (F v) Δ v).2.1)

/-- The extension of the propagator by a self-energy (type `e`), propagator.hpp:320-335. -/
noncomputable def lineE (p : Par) (σ dσ : ℝ → SE) (v : ℝ) : Keldysh.Prop2 ℂ :=
  ⟨katR .hyb { p with v := v } (σ v) (dσ v), katK .hyb (lineG p σ v).gk { p with v := v } (σ v) (dσ v)⟩

/-- What the model leaves open: extraction of the K2 component of the first half together with the part of the second half
that is its mirror image, acceleration, and norms. -/
structure Open where
  k2 : VF → VF
  accel : List (VF × SF) → List (VF × SF) → SF
  absV : VF → Option ℚ
  relV : VF → VF → Option ℚ
  absS : SF → Option ℚ
  relS : SF → SF → Option ℚ

/-- Extraction of the K2b component of the first half together with the corresponding part of the second half. -/
def Open.k2b (o : Open) (V : VF) : VF := mirror (o.k2 (mirror V))

section
variable (o : Open) (Δ : ℝ) (p : Par) (bare : VF) (σ : SF) (V : VF)

/-- The pair of propagators. -/
noncomputable def pair : Pair := pairOf (lineG p σ.at) (lineG p σ.at) false

/-- The differentiated pair with the derivative `dσ` of the self-energy. -/
noncomputable def dpair (dσ : SF) : Pair := pairOf (lineG p σ.at) (lineS p σ.at dσ.at) true

/-- `calculate_dGammaC_right_insertion`, right_hand_sides.hpp:774-797, of the vertex with first half `L` and second half
`R` (line 331). As the right vertex of a bubble a vertex is read through its second argument, so the halves are handed
over exchanged. -/
noncomputable def centralRight (L R : VF) : VF := bub (full bare V) (mirror (halves L R)) (pair p σ)

/-- `calculate_dGammaC_left_insertion`, right_hand_sides.hpp:804-827, of the vertex with first half `R` and second half
`L` (line 364). -/
noncomputable def centralLeft (L R : VF) : VF := bub (halves R L) (full bare V) (pair p σ)

/-- The mean of the two central parts after overwriting K2 and K2b, right_hand_sides.hpp:381-394. -/
noncomputable def central (L R : VF) : VF :=
  let cr := centralRight p bare σ V L R
  let cl := centralLeft p bare σ V L R
  let cl' := cl - o.k2 cl + o.k2 cr
  let cr' := cr - o.k2b cr + o.k2b cl'
  (0.5 : ℝ) • (cr' + cl')

/-- `selfEnergyFlowCorrections`, right_hand_sides.hpp:839-856. -/
noncomputable def corr (C : VF) : SF :=
  let tbar := loop Δ (others C) (lineG p σ.at)
  let t := loop Δ (full bare V) (lineE p σ.at tbar.at)
  tbar + t

/-- The diagrams for the state `(σ, V)`, right_hand_sides.hpp:588-856. -/
noncomputable def eqs : MfRG.Eqs VF SF where
  oneSE := loop Δ (full bare V) (lineS p σ.at (0 : SF).at)
  one dσ := bub (full bare V) (full bare V) (dpair p σ dσ)
  left T := bub (others T) (full bare V) (pair p σ)
  right T := bub (full bare V) (others T) (pair p σ)
  central := central o p bare σ V
  reorder := id
  corr := corr Δ p bare σ V
  accel := o.accel
  absV := o.absV
  relV := o.relV
  absS := o.absS
  relS := o.relS

end

/-- The right-hand side of the flow at `Λ` as a function of the state (self-energy, vertex); a failing evaluation ends the
program and is represented by zero here. -/
noncomputable def rhs (o : Open) (Δ : ℝ → ℝ) (p : Par) (bare : VF) (cfg : MfRG.Cfg) (y : SF × VF) (Λ : ℝ) : SF × VF :=
  match MfRG.rhs (eqs o (Δ Λ) { p with Lam := Λ } bare y.1 y.2) cfg with
  | .ok x => (x.sigma, x.vertex)
  | .error _ => 0

/-- Accepted steps of the flow one after the other: position and width of each. -/
noncomputable def flow (o : Open) (Δ : ℝ → ℝ) (p : Par) (bare : VF) (cfg : MfRG.Cfg) (T : ODE.Tableau)
    (fp : ODE.FlowParam ℝ) (steps : List (ℝ × ℝ)) (y : SF × VF) : SF × VF :=
  steps.foldl (fun y s => (ODE.rkStep T fp (rhs o Δ p bare cfg) y (rhs o Δ p bare cfg y (fp.lam s.1)) s.1 s.2).1) y

end Verif.Invariant
