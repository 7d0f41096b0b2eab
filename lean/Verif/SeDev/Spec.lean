import Verif.SeDev.Model

/-
What users expect from the comparison of self-energies, without reference to how it is computed.
-/
namespace Verif.SeDev

/-- `d` is a deviation of at most the fraction `tol` (strictly less) of `base`: every stored value is smaller than
`tol` times the largest stored modulus of `base`, and the Hartree part smaller than `tol` times that of `base`. -/
def Within (tol : ℝ) (d base : SE) : Prop :=
  (∀ z ∈ d.data, ∃ b ∈ base.data, ‖z‖ < tol * ‖b‖) ∧ ‖d.asymp‖ < tol * ‖base.asymp‖

/-- Particle-hole symmetry of the retarded self-energy up to `δ` at the frequencies of the grid, for every internal
index: the part beyond the Hartree value `h` changes into minus its conjugate under `v ↦ -v`. -/
def ParticleHole (δ : ℝ) (val : ℕ → ℝ → ℕ → ℂ) (h : ℝ) (nIn : ℕ) (grid : List ℝ) : Prop :=
  ∀ v ∈ grid, ∀ j < nIn, ‖(val 0 v j - h) + star (val 0 (-v) j - h)‖ ≤ δ

/-- Particle-hole symmetry of the Keldysh component. -/
def ParticleHoleKeldysh (δ : ℝ) (val : ℕ → ℝ → ℕ → ℂ) (nIn : ℕ) (grid : List ℝ) : Prop :=
  ∀ v ∈ grid, ∀ j < nIn, ‖val 1 v j - star (val 1 (-v) j)‖ ≤ δ

/-- Iteration of `f` until the last step changed little, or four evaluations: the result is the last of the first
`n` iterates, and unless `n = 4` the last two agree. -/
def IteratesToConvergence {S : Type} (f : S → S) (close : S → S → Prop) (σ : S) (r : S × ℕ) : Prop :=
  1 ≤ r.2 ∧ r.2 ≤ 4 ∧ r.1 = f^[r.2] σ ∧ (r.2 < 4 → close (f^[r.2 - 1] σ) r.1)

end Verif.SeDev
