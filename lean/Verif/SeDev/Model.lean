import Verif.Buffer.Model
import Mathlib.Analysis.Complex.Basic

/-
Model of the measures by which self-energies are compared (`SelfEnergy::rel_deviation_to`,
`SelfEnergy::check_symmetries`, /repo/source/correlation_functions/two_point/selfenergy.hpp:366-368, 408-424) and
of the iteration of the Schwinger-Dyson equation inside the flow (`SELF_ENERGY_FLOW_CORRECTIONS == 2`,
/repo/source/mfRG_flow/right_hand_sides.hpp:468-501).
Double-precision numbers are real numbers, with infinity and NaN where a division can produce them.
-/
namespace Verif.SeDev

open Buffer (maxNorm)

/-- A non-negative double. -/
inductive Fl where
  | num (x : ℝ)
  | inf
  | nan

/-- `x / y` for non-negative `x`, `y`; for complex numbers the absolute value of the quotient (a nonzero number
over zero is infinite, zero over zero is NaN). -/
noncomputable def quot (x y : ℝ) : Fl :=
  if y ≠ 0 then .num (x / y) else if x ≠ 0 then .inf else .nan

/-- `a < b`; comparisons with NaN are false. -/
def Fl.lt : Fl → Fl → Prop
  | .num a, .num b => a < b
  | .num _, .inf => True
  | _, _ => False

open Classical in
/-- `std::max(a, b)` is `(a < b) ? b : a`. -/
noncomputable def Fl.max (a b : Fl) : Fl := if a.lt b then b else a

/-- A stored self-energy: the array and the asymptotic value of the retarded component. -/
structure SE where
  data : List ℂ
  asymp : ℂ

/-- `operator-`, selfenergy.hpp:124-132 (equal lengths). -/
noncomputable def SE.sub (a b : SE) : SE := ⟨List.zipWith (· - ·) a.data b.data, a.asymp - b.asymp⟩

/-- `rel_deviation_to`, selfenergy.hpp:366-368. -/
noncomputable def relDev (d base : SE) : Fl :=
  (quot (maxNorm d.data) (maxNorm base.data)).max (quot ‖d.asymp‖ ‖base.asymp‖)

/-- The entry `dev[i]`, selfenergy.hpp:413-417: the loop over the internal index overwrites it. `val iK v j` is
`valsmooth`. -/
noncomputable def devEntry (val : ℕ → ℝ → ℕ → ℂ) (asymp : ℂ) (nIn : ℕ) (v : ℝ) : ℂ :=
  (List.range nIn).foldl (fun _ j => val 0 v j + star (val 0 (-v) j) - 2 * asymp) 0

/-- The number printed by `check_symmetries`, selfenergy.hpp:408-424; `grid` lists the frequencies of the
self-energy. -/
noncomputable def phsDeviation (val : ℕ → ℝ → ℕ → ℂ) (asymp : ℂ) (nIn : ℕ) (grid : List ℝ) : ℝ :=
  maxNorm (grid.map (devEntry val asymp nIn))

section Sde

variable {S : Type} [Sub S]

/-- Arguments of the iteration: the right-hand side of the Schwinger-Dyson equation (`compute_diff_SDE`), the test
`norm_compare < 1e-10`, and `rel_deviation_to > tol`. -/
structure Sde (S : Type) where
  eval : S → S
  tiny : S → Bool
  exceeds : S → S → Bool

/-- One pass of the `do … while` loop, right_hand_sides.hpp:478-501, without Anderson acceleration (with it the
file does not compile, line 511): the new self-energy and the test `diff > tol`; the difference is taken between
`dPsi.selfenergy` and `dSigma_SDE` after the former has been overwritten by the latter (lines 491, 493). -/
def Sde.pass (p : Sde S) (σ : S) : S × Bool :=
  let new := p.eval σ
  let cur := new
  (cur, if p.tiny cur then true else p.exceeds (cur - new) cur)

/-- `do … while (diff > tol and iteration_SDE < 4)`, with `k` further passes allowed; the result and the number of
evaluations. -/
def Sde.go (p : Sde S) : ℕ → S → S × ℕ
  | 0, σ => ((p.pass σ).1, 1)
  | k + 1, σ =>
    let r := p.pass σ
    if r.2 then let r' := p.go k r.1; (r'.1, r'.2 + 1) else (r.1, 1)

/-- The loop as entered, right_hand_sides.hpp:471-501: at most four evaluations. -/
def Sde.run (p : Sde S) (σ : S) : S × ℕ := p.go 3 σ

end Sde

end Verif.SeDev
