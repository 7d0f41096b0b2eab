import Verif.Expand.Model
import Mathlib.Data.Rat.Defs
import Mathlib.Algebra.Ring.Rat
import Mathlib.Algebra.Order.Ring.Rat

/-
Specification for the expansion of vertices.
-/
namespace Verif.Expand

open Freqs (Ch Fr)
open Vertex (KC Input Reader Full Conf)

variable {G F V : Type}

/-- What is assumed of the interpolation: it returns the stored value at a grid point, looks at stored values only
and is additive in them (C39-C41 for the look-ups in use). -/
structure Faithful [Add V] (N : Numerics G F V) : Prop where
  node : ∀ g k d pt, N.inside g k pt = true → N.interp g k d (N.freq g k pt) = d pt
  stored : ∀ g k d d' f, (∀ pt, N.inside g k pt = true → d pt = d' pt) → N.interp g k d f = N.interp g k d' f
  additive : ∀ g k d d' f, N.interp g k (fun pt => d pt + d' pt) f = N.interp g k d f + N.interp g k d' f

/-- The vertex made of an irreducible part and three channel objects; the irreducible part is `+`, `-`, `0` times the
stored one for the spin components 0, 1 and their sum. -/
def whole {R : Type} [AddGroup V] (bare : Nat → Nat → V) (a p t : R) : Full R V :=
  { irred := fun iK iIn s => if s = 0 then bare iK iIn else if s = 1 then -bare iK iIn else 0
    a := a, p := p, t := t }

/-- The classes `K2` and `K2b` of every channel are stored on the same grid. -/
def SameK2 (Γ : Full (Rv G V) V) : Prop := ∀ r, (Γ.ch r .k2b).grid = (Γ.ch r .k2).grid

/-- The channels `a` and `t` are stored on the same grids. -/
def SameCrossed (Γ : Full (Rv G V) V) : Prop := ∀ k, (Γ.a k).grid = (Γ.t k).grid

/-- Linear interpolation between values at `0`, `c`, `2 c`; zero outside. -/
def hat (c y₀ y₁ y₂ x : ℚ) : ℚ :=
  if x < 0 then 0
  else if x ≤ c then y₀ + (y₁ - y₀) * (x / c)
  else if x ≤ 2 * c then y₁ + (y₂ - y₁) * (x / c - 1)
  else 0

/-- A concrete interpolation, in the first frequency: three grid points with a positive spacing. -/
def lin : Numerics {c : ℚ // 0 < c} ℚ ℚ :=
  { inside := fun _ _ pt => decide (pt.iw < 3 ∧ pt.iv = 0 ∧ pt.ivp = 0)
    freq := fun c _ pt => ⟨c.1 * pt.iw, 0, 0⟩
    interp := fun c _ d f => hat c.1 (d ⟨0, 0, 0⟩) (d ⟨1, 0, 0⟩) (d ⟨2, 0, 0⟩) f.w }

/-- The build with the first class only; the frequency conversions play no role. -/
def conf : Conf ℚ := { maxDiag := 1, static := false, zero := 0, twoMu := 0, tr := fun _ _ f => f }

/-- A channel object on the grid with spacing `c` whose second spin component is one at the middle point; `y` is the
value of the first spin component there. -/
def peak (c : {c : ℚ // 0 < c}) (y z : ℚ) : Rv {c : ℚ // 0 < c} ℚ :=
  fun _ => { grid := c, data := fun s _ _ pt => if pt.iw = 1 then (if s = 0 then y else z) else 0 }

end Verif.Expand
