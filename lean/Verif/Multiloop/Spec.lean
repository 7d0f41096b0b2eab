import Verif.Multiloop.Model
import Mathlib.Analysis.Calculus.Deriv.Basic

/-
What the multiloop flow is for: the parquet equations and their derivative.
-/
namespace Verif.Multiloop

open Keldysh (Ch)

variable {V P S : Type} [NormedAddCommGroup V] [NormedSpace ℝ V] [NormedAddCommGroup P] [NormedSpace ℝ P]
  [NormedAddCommGroup S] [NormedSpace ℝ S]

/-- The Bethe–Salpeter equations in all channels for bubbles `pi`, fully irreducible part `bare` and reducible parts
`red`: each reducible part is the bubble of the full vertex with the vertex that is irreducible in the channel, from
either side. -/
def Parquet (pi : Ch → V →L[ℝ] V →L[ℝ] V) (bare : V) (red : Ch → V) : Prop :=
  ∀ r, red r = pi r (bare + others r red) (bare + total red) ∧ red r = pi r (bare + total red) (bare + others r red)

/-- Chains of two bubbles in one channel can be evaluated from either end; also if one of the two is differentiated. -/
structure Chain (pi dpi : Ch → V →L[ℝ] V →L[ℝ] V) : Prop where
  same : ∀ r a b c, pi r (pi r a b) c = pi r a (pi r b c)
  left : ∀ r a b c, pi r (dpi r a b) c = dpi r a (pi r b c)
  right : ∀ r a b c, dpi r (pi r a b) c = pi r a (dpi r b c)

/-- The Bethe–Salpeter equations differentiated with the product rule: one term for the irreducible vertex, one for the
bubble, one for the full vertex; the fully irreducible part does not flow. -/
def DerivedBSE (pi dpi : Ch → V →L[ℝ] V →L[ℝ] V) (bare : V) (red D : Ch → V) : Prop :=
  ∀ r, D r = pi r (others r D) (bare + total red) + dpi r (bare + others r red) (bare + total red) +
    pi r (bare + others r red) (total D)

/-- Closing a loop over a `t` bubble is the same as closing it over the right vertex first and extending the propagator by
the resulting self-energy. -/
def Closing (k : Known V P S) : Prop := ∀ a b p, k.loop (k.pi .t a b) p = k.loop a (k.ext (k.loop b p))

/-- The flow equation of the self-energy in terms of the vertex irreducible in channel `t`: its loop with the full
derivative of the propagator, which contains the derivative of the self-energy, and the loop of the propagator with a
differentiated vertex. -/
def SelfEnergyFlow (k : Known V P S) (C : Ch → V) (dS : S) : Prop :=
  dS = k.loop (k.bare + others .t k.red) (k.katanin dS) + k.loop (others .t C) k.G

/-- Left plus right part. -/
noncomputable def sides (k : Known V P S) (T : Ch → V) : Ch → V := k.left T + k.right T

/-- Central part made from the left and right parts. -/
noncomputable def middle (k : Known V P S) (T : Ch → V) : Ch → V := k.central (k.left T) (k.right T)

end Verif.Multiloop
