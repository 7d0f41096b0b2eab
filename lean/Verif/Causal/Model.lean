import Verif.Pt2.Model

/-
The self-energy of second order with an arbitrary self-energy in the lines. The function of the code takes the self-energy
of the lines from the state it is given; perturbation theory gives it the Hartree term (Verif.Pt2), the first step of the
parquet iteration the self-energy of the state it starts with.
-/
namespace Verif.Causal
open Verif.Symmetries Verif.Heredity Verif.Propagator Verif.Invariant
open Verif.Freqs (Ch)

/-- `selfEnergyInSOPT`, /repo/source/perturbation_theory_and_parquet/perturbation_theory.hpp:58-72, without the constant of
its last line: bubble of two bare vertices in channel `a`, closed with a propagator with the same self-energy `σ`. `Δ` sets
the limits of the loop integral; exact integrals, as in Verif.Invariant. -/
noncomputable def second (Δ : ℝ) (p : Par) (σ : SF) (bare : VF) : SF :=
  Sde.loopOne false Δ (bub bare bare (pair p σ) false .a) (lineG p σ.at)

end Verif.Causal
