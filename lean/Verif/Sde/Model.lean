import Verif.Invariant.Model
import Verif.Parquet.Model

/-
The parquet iteration at real frequencies with the diagrams themselves: `compute_BSE`, `compute_SDE` and
`parquet_iteration`, /repo/source/perturbation_theory_and_parquet/parquet_solver.hpp:27-354, 478-489, applied to the
bubbles and propagators of Verif.Invariant. Vertices are functions of the energies of the legs and self-energies functions
of frequency instead of being interpolated; the integrals are exact. `SBE_DECOMPOSITION == 0`, `DEBUG_SYMMETRIES == 1`;
versions 1 and 2 of the Schwinger–Dyson equation.
-/
namespace Verif.Sde
open Verif.Symmetries Verif.Heredity Verif.Propagator Verif.Invariant
open Verif.Freqs (Ch Fr legs)

/-- The part of a vertex reducible in one channel: spin component, Keldysh indices, energies. -/
abbrev Part : Type := Nat → (Fin 4 → Bool) → (Fin 4 → ℝ) → ℂ

/-- The three spin components a loop can read; the last one is the sum of the others, vertex.hpp:934-939 with C97. -/
def spins (Γ : Part) : Part := fun s α ν => if s = 2 then Γ 0 α ν + Γ 1 α ν else Γ s α ν

/-- `loop<false, version>`, loop.hpp:500-528 with integrandSE.hpp:299-323 and 434-441: one spin component, read at transfer
frequency 0 in channel `t` (version 0) or `a` (version 1, where the sign is changed at the end). `Δ` sets the limits of the
integral. -/
noncomputable def loopOne (version : Bool) (Δ : ℝ) (Γ : Part) (G : ℝ → Keldysh.Prop2 ℂ) : SF :=
  let F : ℝ → ℝ → Fin 4 → ℂ := fun v vp => Loop.row version false (G vp).matrix
    fun s iK => spins Γ s (bits iK) (legFun (legs (.ch (if version then .a else .t)) ⟨0, vp, v⟩))
  (if version then -1 else 1 : ℝ) • (fun v => (Loop.keldyshLoop (F v) Δ v).1, fun v => (Loop.keldyshLoop (F v) Δ v).2.1)

/-- What does not depend on the state: particle-hole symmetry, interaction, scale of the integration limits, end points of
the frequency grid, parameters of the propagator. -/
structure Setup where
  ph : Bool
  U : ℝ
  Δ : ℝ
  ends : ℝ × ℝ
  p : Par

/-- The end of `loop` without particle-hole symmetry, loop.hpp:518-528: the real part of the mean of the values at the ends
of the grid is split off. What is split off becomes the asymptotic value, which `compute_SDE` overwrites. -/
noncomputable def split (u : Setup) (σ : SF) : SF :=
  if u.ph then σ else (fun v => σ.1 v - (((σ.1 u.ends.1 + σ.1 u.ends.2) / 2).re : ℝ), σ.2)

/-- Mean of the bubbles with the bare vertex on the left and on the right, parquet_solver.hpp:99-132. In channels `a` and
`t` the partner bubble is computed as well, lines 111-130; here all three channels are. -/
noncomputable def meanBub (bare Γ : VF) (P : Pair) : VF := (0.5 : ℝ) • (bub bare Γ P + bub Γ bare P)

/-- `compute_SDE_impl<channel>`, parquet_solver.hpp:89-155: the loop over the part of the mean bubble reducible in the
channel. A bubble with a bare vertex has no K3, so the restriction of lines 134-145 leaves all of it. -/
noncomputable def closed (u : Setup) (bare : VF) (σ : SF) (Γ : VF) (c : Ch) : SF :=
  split u (loopOne (c == .t) u.Δ ((meanBub bare Γ (pair u.p σ)) false c) (lineG u.p σ.at))

/-- `compute_SDE_v1`, parquet_solver.hpp:158-203. In a bubble of channel `c` the vertices consist of the bare vertex and
the part reducible in `c` (lines 161-171; in the partner bubble the roles of `a` and `t` are exchanged, line 112). -/
noncomputable def equation1 (u : Setup) (bare : VF) (σ : SF) (V : VF) : SF :=
  closed u bare σ (bare + V) .a + closed u bare σ (bare + V) .p + closed u bare σ (bare + V) .t -
    (2 : ℝ) • closed u bare σ bare .a

/-- `compute_SDE_impl_v2`, parquet_solver.hpp:215-226. -/
noncomputable def equation2 (u : Setup) (bare : VF) (σ : SF) (V : VF) : SF :=
  (0.5 : ℝ) • (closed u bare σ (full bare V) .a + closed u bare σ (full bare V) .p)

/-- The part of the self-energy that depends on frequency; `first` for version 1 of the equation. -/
noncomputable def dynamic (first : Bool) (u : Setup) (bare : VF) (σ : SF) (V : VF) : SF :=
  if first then equation1 u bare σ V else equation2 u bare σ V

/-- A real constant added to the retarded component: the asymptotic value, selfenergy.hpp:159-163, 207-224. -/
noncomputable def shift (h : ℝ) (σ : SF) : SF := (fun v => σ.1 v + (h : ℂ), σ.2)

/-- `compute_SDE`, parquet_solver.hpp:328-354; `hartree` is the one-shot evaluation of the Hartree term, used without
particle-hole symmetry. -/
noncomputable def computeSDE (first : Bool) (u : Setup) (hartree : SF → ℝ) (bare : VF) (σ : SF) (V : VF) : SF :=
  shift (if u.ph then u.U / 2 else hartree σ) (dynamic first u bare σ V)

/-- `compute_BSE`, parquet_solver.hpp:27-60: mean of the bubbles with the irreducible vertex on the left and on the
right. -/
noncomputable def computeBSE (u : Setup) (bare : VF) (σ : SF) (V : VF) : VF :=
  (0.5 : ℝ) • (bub (bare + others V) (full bare V) (pair u.p σ) + bub (full bare V) (bare + others V) (pair u.p σ))

/-- `parquet_iteration`, parquet_solver.hpp:478-489; the bare vertex stays the same. -/
noncomputable def iteration (first : Bool) (u : Setup) (hartree : SF → ℝ) (bare : VF) (y : SF × VF) : SF × VF :=
  (computeSDE first u hartree bare y.1 y.2, computeBSE u bare y.1 y.2)

/-- `parquet_solver` with these equations; mixing or acceleration and the deviations are arguments. -/
noncomputable def problem (first : Bool) (u : Setup) (hartree : SF → ℝ) (bare : VF)
    (upd : List ((SF × VF) × (SF × VF)) → ℝ → SF × VF) (relV relS : SF × VF → SF × VF → Option ℝ) :
    Parquet.Problem (SF × VF) :=
  ⟨iteration first u hartree bare, upd, relV, relS⟩

end Verif.Sde
