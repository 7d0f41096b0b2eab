import Verif.Sde.ModelImag

/-
Version 3 of the Schwinger–Dyson equation and its derivative with respect to the flow parameter,
/repo/source/perturbation_theory_and_parquet/parquet_solver.hpp:255-292, 355-376, at imaginary frequencies and finite
temperature, with the simplifications of Verif.Sde.ModelImag.
-/
namespace Verif.Sde.Imag
open Verif.Symmetries Verif.ImagFlow
open Verif.Freqs (Ch Fr)

/-- The diagrammatic classes of a reducible vertex. -/
structure Classes (R : Type) where
  k1 : VF R
  k2 : VF R
  k2b : VF R
  k3 : VF R

section
variable {R : Type} [CommRing R] [StarRing R] [Algebra ℝ R]

/-- The reducible vertex. -/
def Classes.total (K : Classes R) : VF R := K.k1 + K.k2 + K.k2b + K.k3

/-- `compute_SDE_impl_v3`, parquet_solver.hpp:253-280, up to the end of the loop, with the asymptotic value added to the
entries (selfenergy.hpp:159-163): the loop over K1 and K2 of the channel. K2b and K3 of the channel and the other channels
are set to zero (lines 259-272; scaling K2b before has no effect), the irreducible part is not:
`vanishing_component_gamma0` (vertex.hpp:1061, 1101) stays unset. Lines 261-266 compile only for `DEBUG_SYMMETRIES == 0`
when the vertex is differentiated. -/
def raw3 (u : ImagFlow.Setup R) (irr : VF R) (K : Classes R) (G : ℤ → R) (c : Ch) : SF R :=
  loopOne (c == .t) u (irr false c + (K.k1 false c + K.k2 false c)) G

/-- `compute_SDE_v3`, parquet_solver.hpp:283-293, without the asymptotic value. -/
noncomputable def equation3 (u : Setup R) (bare : VF R) (σ : SF R) (K : Classes R) : SF R :=
  (0.5 : ℝ) • (split u (raw3 u.core bare K (lineG u.core u.Λ σ) .a) + split u (raw3 u.core bare K (lineG u.core u.Λ σ) .p))

/-- `compute_SDE` with `version == 3`, parquet_solver.hpp:328-354. -/
noncomputable def computeSDE3 (u : Setup R) (hartree : SF R → ℝ) (bare : VF R) (σ : SF R) (K : Classes R) : SF R :=
  shift (if u.core.ph then u.U / 2 else hartree σ) (equation3 u bare σ K)

/-- `compute_diff_SDE`, parquet_solver.hpp:357-376, entries and asymptotic value together (what loop.hpp:518-528 splits off
an entry is added again when it is read). A differentiated vertex has no irreducible part. -/
noncomputable def diffSDE (u : Setup R) (bare : VF R) (σ : SF R) (K : Classes R) (dσ : SF R) (dK : Classes R) : SF R :=
  (0.5 : ℝ) • (raw3 u.core bare K (lineS u.core u.Λ σ dσ) .a + raw3 u.core bare K (lineS u.core u.Λ σ dσ) .p +
    raw3 u.core 0 dK (lineG u.core u.Λ σ) .a + raw3 u.core 0 dK (lineG u.core u.Λ σ) .p)

end
end Verif.Sde.Imag
