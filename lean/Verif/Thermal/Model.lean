import Verif.Invariant.Model

/-
The extension of the propagator with the option `USE_FDT_4_SELFENERGY` (master_parameters.hpp:90).
-/
namespace Verif.Thermal
open Verif.Propagator Verif.Invariant Verif.Heredity

/-- `Katanin_R` and `Katanin_K` with `USE_FDT_4_SELFENERGY`, propagator.hpp:325-335: the Keldysh component of the derivative
of the self-energy is computed from the retarded one (`diff_Sigma_K_REG5`, lines 807-813), for every regulator. Here with
the hybridisation regulator (`REG == 2`). -/
noncomputable def lineEFdt (p : Par) (σ dσ : ℝ → SE) (v : ℝ) : Keldysh.Prop2 ℂ :=
  ⟨katR .hyb { p with v := v } (σ v) (dσ v), katK .hyb (lineG p σ v).gk { p with v := v } (σ v)
    { (dσ v) with K := diffSigmaK5 { p with v := v } (σ v) (dσ v) }⟩

end Verif.Thermal
