import Verif.Keldysh.Model
import Mathlib.Analysis.Complex.Basic
import Mathlib.MeasureTheory.Integral.IntervalIntegral.Basic
import Mathlib.Analysis.Real.Pi.Bounds

/-
Model of the self-energy loop: /repo/source/loop/loop.hpp, /repo/source/loop/integrandSE.hpp, and of the
combinations of loops in /repo/source/perturbation_theory_and_parquet/parquet_solver.hpp:88-370.
`version : Bool` is the template argument `version` (false = 0, true = 1).
-/
namespace Verif.Loop

open Keldysh

/-- `pick_channel<version>`, integrandSE.hpp:19. -/
def channel (version : Bool) : Ch := if version then .a else .t

/-- `pick_spin<version, ispin>`, integrandSE.hpp:20. -/
def pickSpin (version : Bool) (ispin : Nat) : Nat := if version then 2 - ispin else ispin

section Integrand
variable {R : Type} [CommRing R]

/-- `evaluate_propagator_vectorized`, integrandSE.hpp:383-388: the matrix returned by `valsmooth_vectorized`
as a row of four, entries 1 and 2 exchanged. -/
def propRow (G : Matrix (Fin 2) (Fin 2) R) : Fin 4 → R :=
  let row : Fin 4 → R := ![G 0 0, G 0 1, G 1 0, G 1 1]
  row ∘ Equiv.swap 1 2

/-- One spin component of the vertex in `evaluate_vertex_vectorized`, integrandSE.hpp:410-441: sixteen values
of the symmetry-expanded vertex (position `k` holds component `rotate<channel, right>(k)`) reshaped to 4×4
in column-major order. -/
def loadVertex (version : Bool) (Γ : Nat → R) : Matrix (Fin 4) (Fin 4) R :=
  fun r c => Γ (rotate (channel version) false (4 * c.val + r.val))

/-- `evaluate_vertex_vectorized`: with `all_spins`, twice the first plus once the second spin component. -/
def vertexMatrix (version allSpins : Bool) (Γ : Nat → Nat → R) : Matrix (Fin 4) (Fin 4) R :=
  if allSpins then
    fun r c => loadVertex version (Γ (pickSpin version 0)) r c * 2 + loadVertex version (Γ (pickSpin version 1)) r c
  else loadVertex version (Γ (pickSpin version 0))

/-- The product `G * V` of a row and a matrix, integrandSE.hpp:301-323, Keldysh basis. -/
def row (version allSpins : Bool) (G : Matrix (Fin 2) (Fin 2) R) (Γ : Nat → Nat → R) : Fin 4 → R :=
  fun c => ∑ r : Fin 4, propRow G r * vertexMatrix version allSpins Γ r c

/-- `components` for `SWITCH_SUM_N_INTEGRAL == 0`, `CONTOUR_BASIS != 1`, integrandSE.hpp:121-143, 177-199:
first three entries (retarded, advanced, Keldysh propagator). -/
def components (version : Bool) (type : Nat) : Res (List Nat) :=
  if type = 2 then .ok (if version then [3, 5, 7] else [3, 6, 7])
  else if type = 0 then .ok (if version then [2, 4, 6] else [1, 4, 5])
  else .error .assertion

/-- The same in the contour basis, integrandSE.hpp:144-172, 200-229. -/
def componentsContour (version : Bool) (type : Nat) : Res (List Nat) :=
  if type = 0 then .ok (if version then [0, 4, 2, 6] else [0, 4, 1, 5])
  else if type = 1 then .ok (if version then [1, 5, 3, 7] else [2, 6, 3, 7])
  else if type = 2 then .ok (if version then [8, 12, 10, 14] else [8, 12, 9, 13])
  else if type = 3 then .ok (if version then [9, 13, 11, 15] else [10, 14, 11, 15])
  else .error .assertion

/-- Sum over `iK` of `Gi * vertex` at one frequency (`SWITCH_SUM_N_INTEGRAL == 0`), integrandSE.hpp:326-334,
358-375, 400-406; one spin component. -/
def table [StarRing R] (version : Bool) (type : Nat) (g : Prop2 R) (Γ : Nat → R) : Res R := do
  let k ← components version type
  return g.gr * Γ (k.getD 0 0) + star g.gr * Γ (k.getD 1 0) + g.gk * Γ (k.getD 2 0)

/-- The same in the contour basis; `G` holds the contour components `00, 01, 10, 11`. -/
def tableContour (version : Bool) (type : Nat) (G : Matrix (Fin 2) (Fin 2) R) (Γ : Nat → R) : Res R := do
  let k ← componentsContour version type
  return G 0 0 * Γ (k.getD 0 0) + G 0 1 * Γ (k.getD 1 0) + G 1 0 * Γ (k.getD 2 0) + G 1 1 * Γ (k.getD 3 0)

/-- The components built by `compute_Keldysh` with `SWITCH_SUM_N_INTEGRAL == 0`, `CONTOUR_BASIS != 1`,
loop.hpp:193-224 and again 312-343: type 1 for the retarded, type 0 for the Keldysh component; both blocks
add to the entries they find. -/
def unswitched [StarRing R] (version : Bool) (g : Prop2 R) (Γ : Nat → R) (old : R × R) : Res (R × R) := do
  let r ← table version 1 g Γ
  let k ← table version 0 g Γ
  return (old.1 + r + r, old.2 + k + k)

end Integrand

section Contour
variable {K : Type} [Field K]

/-- Contour-basis propagator, propagator.hpp:527-534, from retarded, advanced and Keldysh component. -/
def contourProp (gr ga gk : K) : Matrix (Fin 2) (Fin 2) K :=
  !![1/2 * (ga + gr + gk), 1/2 * (ga - gr + gk); 1/2 * (-ga + gr + gk), 1/2 * (-ga - gr + gk)]

/-- `transform_to_KeldyshBasis`, integrandSE.hpp:97-100. -/
def toKeldysh : Matrix (Fin 4) (Fin 4) K :=
  !![ 1/2,  1/2,  1/2, 1/2;
     -1/2,  1/2, -1/2, 1/2;
     -1/2, -1/2,  1/2, 1/2;
      1/2, -1/2, -1/2, 1/2]

/-- The product with `CONTOUR_BASIS`, integrandSE.hpp:315-317. -/
def rowContour (version allSpins : Bool) (G : Matrix (Fin 2) (Fin 2) K) (Γ : Nat → Nat → K) : Fin 4 → K :=
  fun c => ∑ d : Fin 4, row version allSpins G Γ d * toKeldysh d c

/-- Retarded, Keldysh and vanishing component from the four contour integrals `00`, `01`, `10`, `11`,
loop.hpp:181-188, 273-280. -/
def combine (s00 s01 s10 s11 : K) : K × K × K :=
  ((s00 + s01 - s10 - s11) * (1/2), (s00 - s01 - s10 + s11) * (1/2), (s00 + s01 + s11 + s10) * (1/2))

/-- Scalar integration in the contour basis, the contour sum inside the integrand
(`SWITCH_SUM_N_INTEGRAL`, not vectorised), loop.hpp:174-191: types 0, 2, 1, 3 are used as `00, 01, 10, 11`. -/
def scalarContour (version allSpins : Bool) (G : Matrix (Fin 2) (Fin 2) K) (Γ : Nat → Nat → K) : K × K × K :=
  let s := row version allSpins G Γ
  combine (s 0) (s 2) (s 1) (s 3)

/-- Scalar integration in the contour basis, the contour sum outside the integrand
(`SWITCH_SUM_N_INTEGRAL == 0`), loop.hpp:225-282: types 0, 1, 2, 3 are used as `00, 01, 10, 11`; one spin
component. -/
def tablesContour (version : Bool) (G : Matrix (Fin 2) (Fin 2) K) (Γ : Nat → K) : Res (K × K × K) := do
  let s00 ← tableContour version 0 G Γ
  let s01 ← tableContour version 1 G Γ
  let s10 ← tableContour version 2 G Γ
  let s11 ← tableContour version 3 G Γ
  return combine s00 s01 s10 s11

end Contour

section Integral

/-- `IntegrandSE::Keldysh_value`, integrandSE.hpp:299-323: half the sum of the products at `vp` and `-vp`. -/
noncomputable def integrand (F : ℝ → Fin 4 → ℂ) (vp : ℝ) : Fin 4 → ℂ := fun c => (F vp c + F (-vp) c) * (1/2)

/-- `Keldysh_prefactor`, loop.hpp:104-111. -/
noncomputable def prefactor : ℂ := -1 / (2 * Real.pi * Complex.I)

/-- The vectorised Keldysh loop at one external frequency, loop.hpp:78-95 and 135-150; the numerical integrator is
replaced by the exact integral between the same limits. Result: the three stored components (retarded,
Keldysh, vanishing). -/
noncomputable def keldyshLoop (F : ℝ → Fin 4 → ℂ) (Δ v : ℝ) : ℂ × ℂ × ℂ :=
  let value : Fin 4 → ℂ := fun c => prefactor * ∫ vp in (-Δ * 10 - |v|)..(Δ * 10 + |v|), integrand F vp c
  (star (value 1), value 0, value 3)

end Integral

section Call

/-- A self-energy: `Sigma` (component, frequency index, internal index) and `asymp_val_R`. -/
structure SE where
  val : Nat → Nat → Nat → ℂ
  asymp : ℂ

/-- `setself`, selfenergy.hpp:236-238. -/
def SE.set (s : SE) (iK iv i : Nat) (x : ℂ) : SE :=
  SE.mk (fun a b c => if a = iK ∧ b = iv ∧ c = i then x else s.val a b c) s.asymp

/-- `operator*`, selfenergy.hpp:107-122: the asymptotic value is scaled as well. -/
def SE.scale (s : SE) (α : ℂ) : SE := SE.mk (fun a b c => s.val a b c * α) (s.asymp * α)

/-- The shared memory of a call: the object passed by reference (which the propagator may alias) and the
local copy. -/
structure Mem where
  self : SE
  temp : SE

/-- One write of one iteration, loop.hpp:509-512: iteration `iSE` writes component `iK` of the entry
`iv = iSE / n_in`, `i_in = iSE - iv * n_in`, unless its frequency is not finite (`none`). `value` is the value
computed by `LoopCalculator` from what it can read. -/
def write (value : SE → Nat → Nat → Option (Nat → ℂ)) (nin : Nat) (m : Mem) (a : Nat × Nat) : Mem :=
  let iv := a.1 / nin
  let i := a.1 - iv * nin
  match value m.self iv i with
  | none => m
  | some f => { m with temp := m.temp.set a.2 iv i (f a.2) }

/-- All writes of the parallel loop in the order in which they happen. -/
def writes (value : SE → Nat → Nat → Option (Nat → ℂ)) (nin : Nat) (order : List (Nat × Nat)) (m : Mem) : Mem :=
  order.foldl (write value nin) m

/-- Splitting off the asymptotic value without particle-hole symmetry, loop.hpp:517-528. -/
noncomputable def split (nfer nin : Nat) (s : SE) : SE :=
  let av : ℂ := (s.val 0 0 0 + s.val 0 (nfer - 1) 0) / 2
  SE.mk (fun a b c => if a = 0 ∧ b < nfer ∧ c < nin then s.val a b c + -(av.re : ℂ) else s.val a b c) (av.re : ℂ)

/-- `loop<all_spins, version>(self, fullvertex, prop)`, loop.hpp:500-528. -/
noncomputable def loop (version phs : Bool) (value : SE → Nat → Nat → Option (Nat → ℂ)) (nfer nin : Nat)
    (order : List (Nat × Nat)) (self : SE) : SE :=
  let m := writes value nin order (Mem.mk self self)
  let s := m.temp.scale (if version then -1 else 1)
  if phs then s else split nfer nin s

end Call

section Equation
variable {V S : Type} [AddCommGroup V] [Module ℝ V] [AddCommGroup S] [Module ℝ S]

/-- `compute_SDE_v1`, parquet_solver.hpp:183-203: `D r Γ` is the loop over the `r` bubble of the bare and the
given vertex (`compute_SDE_impl<r>`), here any linear map; the vertices passed contain the bare vertex and
the part reducible in `r` only. -/
def equationV1 (D : Ch → V →ₗ[ℝ] S) (bare : V) (γ : Ch → V) : S :=
  D .a (bare + γ .a) + D .p (bare + γ .p) + D .t (bare + γ .t) - (2 : ℝ) • D .a bare

/-- `compute_SDE_impl_v2`, parquet_solver.hpp:215-226. -/
noncomputable def equationV2 (D : Ch → V →ₗ[ℝ] S) (bare : V) (γ : Ch → V) : S :=
  (0.5 : ℝ) • (D .a (bare + γ .a + γ .p + γ .t) + D .p (bare + γ .a + γ .p + γ .t))

/-- `compute_SDE_v3`, parquet_solver.hpp:283-293: average of the loops over the parts of the vertex reducible
in `a` and in `p`; linear in vertex and propagator. -/
noncomputable def equationV3 {P : Type} [AddCommGroup P] [Module ℝ P] (L : Ch → V →ₗ[ℝ] P →ₗ[ℝ] S) (Γ : V) (G : P) : S :=
  (0.5 : ℝ) • (L .a Γ G + L .p Γ G)

/-- `compute_diff_SDE`, parquet_solver.hpp:358-376. -/
noncomputable def equationDiff {P : Type} [AddCommGroup P] [Module ℝ P] (L : Ch → V →ₗ[ℝ] P →ₗ[ℝ] S)
    (Γ dΓ : V) (G dG : P) : S :=
  (0.5 : ℝ) • (L .a Γ dG + L .p Γ dG + L .a dΓ G + L .p dΓ G)

end Equation

end Verif.Loop
