import Verif.Sde.Model
import Verif.Weak.Spec

/-! States close to the Hartree self-energy and a weak vertex, and distances between states. -/
namespace Verif.Converge
open Verif.Invariant Verif.Propagator Verif.Weak

/-- The vertices differ by at most `d` in every component at every frequency. -/
def NearV (d : ℝ) (V V' : VF) : Prop := ∀ h c s α ν, ‖V h c s α ν - V' h c s α ν‖ ≤ d

/-- The retarded self-energies differ by at most `d` at every frequency. -/
def NearR (d : ℝ) (f g : ℝ → ℂ) : Prop := ∀ v, ‖f v - g v‖ ≤ d

/-- Functions that can be integrated piece by piece. -/
structure Meas (y : SF × VF) : Prop where
  retarded : Measurable y.1.1
  keldysh : Measurable y.1.2
  vertex : ∀ h c s α, Measurable (y.2 h c s α)

/-- A weak bare vertex, bounded by `t`, in a system with particle-hole symmetry whose level has the width `Γ + Λ`. -/
structure Weakly (u : Sde.Setup) (bare : VF) (t : ℝ) : Prop where
  ph : u.ph = true
  width : 0 < u.p.Gam + u.p.Lam
  pos : 0 < t
  weak : 3 * 10 ^ 7 * t ≤ (u.p.Gam + u.p.Lam) / 2
  measurable : ∀ h c s α, Measurable (bare h c s α)
  small : SmallV t bare

/-- The states considered: the self-energy differs from its Hartree value by at most a quarter of the width, the vertex is
at most `t`. -/
structure Ball (u : Sde.Setup) (t : ℝ) (y : SF × VF) : Prop where
  meas : Meas y
  self : NearS ((u.p.Gam + u.p.Lam) / 4) y.1 (fun _ => ((u.U / 2 : ℝ) : ℂ), 0)
  vertex : SmallV t y.2

/-- Two states differ by at most `d`: their vertices by `d`, their self-energies by `d` times half the width over `t`. -/
def Near (u : Sde.Setup) (t d : ℝ) (y y' : SF × VF) : Prop :=
  NearS (d * ((u.p.Gam + u.p.Lam) / 2) / t) y.1 y'.1 ∧ NearV d y.2 y'.2

/-- The new state and the old one mixed with the ratio `m`. -/
noncomputable def mixed (f : SF × VF → SF × VF) (m : ℝ) (y : SF × VF) : SF × VF := m • f y + (1 - m) • y

/-- A way to measure the size of a state that the values at all frequencies control, as the norms of the code do. -/
structure Size (u : Sde.Setup) (t : ℝ) (N : SF × VF → ℝ) : Prop where
  nonneg : ∀ z, 0 ≤ N z
  sub : ∀ x y, N x ≤ N y + N (x - y)
  bound : ∃ C, ∀ d z, Near u t d z 0 → N z ≤ C * d

end Verif.Converge
