import Verif.Sde.Model

/-
The flow restricted to second order in the interaction, `PT2_FLOW` (/repo/source/parameters/master_parameters.hpp:54-58,
which demands `MAX_DIAG_CLASS == 1` and `PARTICLE_HOLE_SYMM == 1`), and the second-order perturbation theory it is
compared with, /repo/source/perturbation_theory_and_parquet/perturbation_theory.hpp:20-160. Real frequencies, with the
simplifications of Verif.Invariant.
-/
namespace Verif.Pt2
open Verif.Symmetries Verif.Heredity Verif.Propagator Verif.Invariant
open Verif.Freqs (Ch)

/-- The self-energy of all propagators: half the interaction and nothing else, right_hand_sides.hpp:200-201. The bare state
of perturbation theory has the same, state.hpp:148-163, perturbation_theory.hpp:152-153. -/
noncomputable def bareSE (U : ℝ) : SF := (fun _ => ((U / 2 : ℝ) : ℂ), 0)

/-- `vertexInSOPT`, perturbation_theory.hpp:34-48: bubbles of two bare vertices in the three channels. -/
noncomputable def vertex2 (p : Par) (U : ℝ) (bare : VF) : VF := bub bare bare (pair p (bareSE U))

/-- `selfEnergyInSOPT`, perturbation_theory.hpp:58-72, without the constant of its last line: loop over the bubble in
channel `a`. -/
noncomputable def self2 (Δ : ℝ) (p : Par) (U : ℝ) (bare : VF) : SF :=
  Sde.loopOne false Δ (vertex2 p U bare false .a) (lineG p (bareSE U).at)

/-- `sopt_state`, perturbation_theory.hpp:122-170; the flow starts with it (/repo/source/mfRG_flow/flow.c++:50-57: with
`PT2_FLOW` the parquet solver is skipped). -/
noncomputable def state2 (Δ : ℝ) (p : Par) (U : ℝ) (bare : VF) : SF × VF :=
  (Sde.shift (U / 2) (self2 Δ p U bare), vertex2 p U bare)

section
variable (o : Open) (Δ : ℝ) (p : Par) (U : ℝ) (bare : VF) (σ : SF) (V : VF)

/-- The diagrams of the right-hand side with `PT2_FLOW` for the state `(σ, V)`, right_hand_sides.hpp:196-251, 588-856. With
`MAX_DIAG_CLASS == 1` a bubble reads the bare vertex and the part reducible in its own channel; of a vertex irreducible in
its channel it reads the bare vertex only (vertex.hpp:1325-1329, 1400-1404), which the derivative of a vertex does not have.
There are no classes to be overwritten in the central part. -/
noncomputable def eqs : MfRG.Eqs VF SF where
  oneSE := loop Δ (full bare V) (lineS p (bareSE U).at (0 : SF).at)
  one _ := bub bare bare (dpair p (bareSE U) 0)
  left _ := bub 0 (bare + V) (pair p (bareSE U))
  right _ := bub (bare + V) 0 (pair p (bareSE U))
  central L R := (0.5 : ℝ) • (bub (bare + V) (mirror (halves L R)) (pair p (bareSE U)) +
    bub (halves R L) (bare + V) (pair p (bareSE U)))
  reorder := id
  corr C :=
    let tbar := loop Δ (others C) (lineG p (bareSE U).at)
    let t := loop Δ (full bare V) (Invariant.lineE p σ.at tbar.at)
    tbar + t
  accel := o.accel
  absV := o.absV
  relV := o.relV
  absS := o.absS
  relS := o.relS

end
end Verif.Pt2
