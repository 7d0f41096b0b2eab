import Verif.GridMap.Model
import Verif.FreqGrid.Model

/-
Saving and restoring of `FrequencyGrid<eliasGrid>` (Keldysh formalism),
/repo/source/utilities/hdf5_routines.hpp:523-609 and grids/frequency_grid.{hpp,c++}.
Doubles are real numbers.  The rows written to the file are read back unchanged (C51).
-/
namespace Verif.GridSave

open Verif.GridMap Verif.FreqGrid

/-- `type`: bosonic or fermionic. -/
inductive Kind | b | f
  deriving DecidableEq

/-- Members of the grid that determine its frequencies, hpp:80-95; `diag_class` is 1, 2 or 3. -/
structure Params where
  kind : Kind
  diagClass : Fin 3
  purelyPositive : Bool
  n : Nat
  upper : ℝ
  lower : ℝ
  center : ℝ
  scale : ℝ
  deltaFactor : ℝ
  uFactor : ℝ

/-- The grid built by `initialize_grid` (c++:10-34) with the maps for the Keldysh formalism
(`grid_transf_v2`, c++:193-225). -/
noncomputable def Params.grid (g : Params) : Grid :=
  ⟨v2 g.scale g.center, v2Inv g.scale g.center, g.n, g.lower, g.upper, g.purelyPositive⟩

/-- Compile-time and run-time constants: numbers of grid points (`nBOS`, `nFER`, …), `Delta_factor_*`, and the
`Gamma` of the configuration used. -/
structure Constants where
  number : Kind → Fin 3 → Nat
  delta : Kind → Fin 3 → ℝ
  gamma : ℝ

/-- Constructor, hpp:117-119, with `guess_essential_parameters`, c++:35-104 (`REG = 2`) and
`set_essential_parameters`, hpp:130-170. -/
noncomputable def construct (C : Constants) (kind : Kind) (dc : Fin 3) (Λ : ℝ) (pp : Bool) : Params :=
  let scale := C.delta kind dc * ((Λ + C.gamma) / 2)
  { kind := kind, diagClass := dc, purelyPositive := pp, n := C.number kind dc, upper := scale * 100
    lower := if pp then 0 else -(scale * 100), center := 0, scale := scale, deltaFactor := C.delta kind dc
    uFactor := 0 }

/-- `set_w_center`, hpp:172-178. -/
noncomputable def setCenter (g : Params) (c : ℝ) : Params :=
  let half := (g.upper - g.lower) * (1 / 2)
  { g with center := c, upper := half + c, lower := -half + c }

/-- What `write_freqparams_to_hdf_LambdaLayer` stores, hpp:524-541 (the line for `w_center` is commented out). -/
structure Saved where
  kind : Kind
  diagClass : Fin 3
  purelyPositive : Bool
  n : Nat
  upper : ℝ
  lower : ℝ
  deltaFactor : ℝ
  uFactor : ℝ
  scale : ℝ

/-- `write_freqparams_to_hdf_LambdaLayer`. -/
def save (g : Params) : Saved :=
  ⟨g.kind, g.diagClass, g.purelyPositive, g.n, g.upper, g.lower, g.deltaFactor, g.uFactor, g.scale⟩

/-- `init_freqgrid_from_hdf_LambdaLayer`, hpp:557-609: the grid is constructed with a default configuration and
then its limits and scale are replaced; the stored number of grid points is read (line 569) but not used. -/
noncomputable def restore (C : Constants) (Λ : ℝ) (s : Saved) : Params :=
  let g := construct { C with gamma := 1 } s.kind s.diagClass Λ s.purelyPositive
  { g with upper := s.upper, lower := s.lower, deltaFactor := s.deltaFactor, uFactor := s.uFactor
           scale := s.scale }

end Verif.GridSave
