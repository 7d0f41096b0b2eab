import Verif.Perturb.Model
import Mathlib.Data.Complex.Basic
import Mathlib.Algebra.Module.Basic

/-
Model of /repo/source/postprocessing/postprocessing.c++ and postprocessing.hpp (which layers of a result file are
processed, where their results are stored, the integrated Ward identity, the post-processed susceptibilities) and of
`susceptibilities_postprocessing`, /repo/source/perturbation_theory_and_parquet/parquet_solver.hpp:389-458.

What is computed for one layer (self-energy, vertex integrals) enters as a function of the layer; the numerical
integration is an arbitrary functional.  Doubles are real numbers; `none` is NaN.
-/
namespace Verif.Postproc

/-! ### Layers -/

/-- The layers a function visits are read one by one (`read_state_from_hdf`); a layer that the file does not have
(`nL`: number of layers of the file) throws. -/
def visit (nL : Nat) (layers : List Nat) : Res (List Nat) :=
  if layers.all (· < nL) then .ok layers else .error .exception

/-- `for (unsigned int iLambda=0; iLambda<Lambda_it_max; ++iLambda)` with an `int` bound, postprocessing.c++:17: the
bound is converted to `unsigned`.  `last` is what `check_convergence_hdf` delivers. -/
def phiLayers (last : Int) : List Nat := List.range (last % 2 ^ 32).toNat

/-- `rvec sum_rule (Lambda_it_max)` and `for (int iLambda=0; iLambda<Lambda_it_max; ++iLambda)`, postprocessing.c++:72-74:
a negative length throws. -/
def sumRuleLayers (nL : Nat) (last : Int) : Res (List Nat) :=
  if last < 0 then .error .exception else visit nL (List.range last.toNat)

/-- `for (int iLambda = 0; iLambda <= Lambda_it_max; iLambda++)`, postprocessing.c++:140 (also 176). -/
def suscLayers (nL : Nat) (last : Int) : Res (List Nat) := visit nL (List.range (last + 1).toNat)

/-- The layers of `save_slices_through_fullvertex`, postprocessing.c++:222-236: layer 0 is read first for its grid. -/
def sliceLayers (nL : Nat) (last : Int) : Res (List Nat) := do
  let _ ← visit nL [0]
  visit nL (List.range (last + 1).toNat)

/-- The layers of `check_Kramers_Kronig`, postprocessing.c++:105-129. -/
def kkLayers (nL : Nat) (last : Int) : Res (List Nat) :=
  if nL = 50 then visit nL [1, 5, 13, 16, 26, 32, 37, 41, 44, 47, 49, 51, 53, 56, 65]
  else if nL = 100 then visit nL [1, 8, 23, 29, 48, 59, 67, 74, 79, 83, 87, 90, 93, 98, 115]
  else if last < 0 then .error .exception else visit nL (List.range last.toNat)

/-! ### Tables -/

/-- `buf[i] = x` of an `rvec`: not checked, out of range undefined. -/
def store (buf : List ℝ) (w : Nat × ℝ) : Res (List ℝ) :=
  if w.1 < buf.length then .ok (buf.set w.1 w.2) else .error .undefined

/-- A vector of the given length, initially zero, after a sequence of assignments. -/
def fill (n : Nat) (ws : List (Nat × ℝ)) : Res (List ℝ) := ws.foldlM store (List.replicate n 0)

/-- Extents of the tables of `compute_Phi_tilde`: number of layers of the file, frequencies, internal indices. -/
structure Ext where
  nL : Nat
  nF : Nat
  nIn : Nat

/-- The index used for `vs` and `ImSigma`, postprocessing.c++:30, 32. -/
def vIndex (e : Ext) (l iv i : Nat) : Nat := l * e.nF + iv * e.nIn + i

/-- The index used for `Phi`, postprocessing.c++:35. -/
def phiIndex (e : Ext) (l iv i : Nat) : Nat := l * e.nF * e.nIn + iv * e.nIn + i

/-- The assignments in the order of the loops, postprocessing.c++:17-37. -/
def entries (e : Ext) (layers : List Nat) (index : Nat → Nat → Nat → Nat) (val : Nat → Nat → Nat → ℝ) :
    List (Nat × ℝ) :=
  layers.flatMap fun l => (List.range e.nIn).flatMap fun i => (List.range e.nF).map fun iv =>
    (index l iv i, val l iv i)

/-- The tables `vs`, `ImSigma` and `Phi` of `compute_Phi_tilde`, postprocessing.c++:12-37, for given values at the
layers. -/
def phiTables (e : Ext) (last : Int) (v im ph : Nat → Nat → Nat → ℝ) : Res (List ℝ × List ℝ × List ℝ) := do
  let layers ← visit e.nL (phiLayers last)
  let vs ← fill (e.nL * e.nF * e.nIn) (entries e layers (vIndex e) v)
  let ims ← fill (e.nL * e.nF * e.nIn) (entries e layers (vIndex e) im)
  let phs ← fill (e.nL * e.nF * e.nIn) (entries e layers (phiIndex e) ph)
  return (vs, ims, phs)

/-- Name of the file the tables are written to, postprocessing.c++:52-56; `substr` beyond the end throws. -/
def phiName (name : List Char) : Res (List Char) :=
  if name.length < 3 then .error .exception
  else if (name.drop (name.length - 3)).take 3 = ['.', 'h', '5'] then
    .ok (name.take (name.length - 3) ++ "_Phi.h5".toList)
  else .ok (name ++ "_Phi.h5".toList)

/-! ### Integrated Ward identity -/

/-- What the integrand needs of the grid: upper end, `get_grid_index`, `get_frequency`. -/
structure WGrid where
  wUpper : ℝ
  idx : ℝ → Int
  freq : Int → ℝ

/-- Grid index and weight used at a frequency, postprocessing.hpp:50-58. -/
noncomputable def WGrid.weight (g : WGrid) (vp : ℝ) : Int × ℝ :=
  let i := g.idx vp
  let i := if g.freq i < g.freq (i + 1) then i else i - 1
  (i, (vp - g.freq i) / (g.freq (i + 1) - g.freq i))

/-- `Integrand_Ward_id_integrated::operator()`, postprocessing.hpp:48-67, for one layer and internal index: `Phi` is
real, the self-energy is complex, and the imaginary part of the sum is returned. -/
noncomputable def wardIntegrand (g : WGrid) (Phi : Int → ℝ) (sigma : ℝ → ℂ) (vp : ℝ) : ℝ :=
  if |vp| < g.wUpper then
    let ix := g.weight vp
    ((((1 - ix.2) * Phi ix.1 + ix.2 * Phi (ix.1 + 1) : ℝ) : ℂ) + 2 * sigma vp).im
  else 0

/-- A quotient of doubles of which the denominator may vanish. -/
noncomputable def ratio (x y : ℝ) : Option ℝ := if y = 0 then none else some (x / y)

/-- `Phi_integrated` of one layer, postprocessing.c++:38-48; `I`: the integrator over the grid. -/
noncomputable def phiIntegrated (I : (ℝ → ℝ) → ℝ) (g : WGrid) (Phi : Int → ℝ) (sigma : ℝ → ℂ) : Option ℝ :=
  ratio (I (wardIntegrand g Phi sigma)) (I (wardIntegrand g (fun _ => 0) sigma))

/-! ### Slices -/

/-- One point of `slices` in `save_slices_through_fullvertex`, postprocessing.c++:242-246: sixteen components
initially zero, `for (int iK = 0; iK<15; iK++)`. -/
def slicePoint (value : Nat → ℂ) : Nat → ℂ := fun iK => if iK < 15 then value iK else 0

/-! ### Susceptibilities -/

open Perturb

variable {A S : Type}

/-- The three channels in the order of the loops. -/
def channels : List Ch := [.a, .p, .t]

/-- `compute_postprocessed_susceptibilities`, postprocessing.c++:140-156, for one layer: the K1 part of the result in
each channel.  `bare`: the vertex of `state_bare`. -/
def suscPost (N : Numerics A S) (debug : Bool) (Γ bare : Vtx A) (r : Ch) : A :=
  let inter := channels.foldl (fun x c => bubbleFunction N debug x Γ bare c (true, true, false)) bare
  let result := channels.foldl (fun x c => bubbleFunction N debug x bare inter c (true, false, false)) bare
  result.red r .k1

/-- `compute_proprocessed_susceptibilities_PT2`, postprocessing.c++:176-207, for one layer: `N` uses the bubble of
Hartree propagators, `NK` the bubble with one line corrected by the second-order self-energy. -/
def suscPostPT2 [Add A] [Zero A] (N NK : Numerics A S) (debug : Bool) (Γ bare : Vtx A) (r : Ch) : A :=
  let corr := channels.foldl (fun x c => bubbleFunction NK debug x bare bare c (true, false, false)) Vtx.zero
  suscPost N debug Γ bare r + corr.red r .k1

/-- A vertex with different behaviour on its two sides: the two halves, vertex.hpp:1115-1130. -/
structure Halves (A : Type) where
  half1 : Vtx A
  half2 : Vtx A

/-- The bubbles with a vertex given by two halves on the left or on the right. -/
structure NumericsHalves (A S : Type) extends Numerics A S where
  bubbleL : Ch → Cls → Halves A → Vtx A → A
  bubbleR : Ch → Cls → Vtx A → Halves A → A

/-- `susceptibilities_postprocessing`, parquet_solver.hpp:389-458: `chi` and `chi_diff` in one channel (the loop also
visits the terminating zero of the string, for which nothing is computed). `half`: multiplication by one half. -/
def suscParquet [Add A] [Sub A] [Zero A] (N : NumericsHalves A S) (debug : Bool) (half : A → A) (Γ bare : Vtx A)
    (r : Ch) : A × A :=
  let chi0 := bubbleFunction N.toNumerics debug Vtx.zero bare bare r
  let g0g := bubbleFunction N.toNumerics debug Vtx.zero bare Γ r
  let gg0 := bubbleFunction N.toNumerics debug Vtx.zero Γ bare r
  let chiL := N.bubbleL r .k1 ⟨g0g, gg0⟩ bare
  let chiR := N.bubbleR r .k1 bare ⟨gg0, g0g⟩
  let chi := chi0.red r .k1 + half (chiL + chiR)
  (chi, Γ.red r .k1 - chi)

/-- The irreducible part `susceptibilities_postprocessing` gives its bare vertex, parquet_solver.hpp:396 (contour basis
off); the same in both formalisms. -/
noncomputable def parquetBare (_keldysh : Bool) (U : ℝ) : ℝ := -U / 2

/-- The irreducible part of a state, parquet_solver.hpp:483-484 (also 94-95). -/
noncomputable def stateBare (keldysh : Bool) (U : ℝ) : ℝ := if keldysh then -U / 2 else -U

end Verif.Postproc
