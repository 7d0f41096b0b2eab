import Verif.Converge.Spec
import Verif.Spectrum.Model

/-! Systems whose parameters differ a little, and computations with errors. -/
namespace Verif.Robust
open Verif.Converge Verif.Propagator
open Verif.Invariant (VF SF)
open Verif.Sde (Setup)
open Verif.Spectrum (half)

/-- The same system with another scale, hybridization, level position or range of the loop integrals: interaction,
temperature and chemical potential agree. -/
structure Same (u u' : Setup) : Prop where
  ph : u'.ph = u.ph
  U : u'.U = u.U
  T : u'.p.T = u.p.T
  mu : u'.p.mu = u.p.mu

/-- How much the parameters differ: half the widths, the level positions and the ranges of the loop integrals. -/
noncomputable def gap (u u' : Setup) : ℝ := |half u'.p - half u.p| + |u'.p.eps - u.p.eps| + |u'.Δ - u.Δ|

/-- The system `u` at scale `Λ`, with the range of the loop integrals of the code, loop.hpp:40. -/
noncomputable def atScale (u : Setup) (Λ : ℝ) : Setup := { u with p := { u.p with Lam := Λ }, Δ := (Λ + u.p.Gam) / 2 }

/-- A sequence of states each of which is the update of its predecessor up to an error `ε`. -/
def Computed (u : Setup) (t ε : ℝ) (f : SF × VF → SF × VF) (x : ℕ → SF × VF) : Prop := ∀ n, Near u t ε (x (n + 1)) (f (x n))

end Verif.Robust
