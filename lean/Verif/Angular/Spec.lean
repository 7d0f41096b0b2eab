import Verif.Angular.Model

/-
Specification of an angular grid.
-/
namespace Verif.Angular

/-- The parameters make sense. -/
structure Grid.Valid (g : Grid) : Prop where
  m : 0 < g.m
  lam : 0 ≤ g.lam
  power : 1 ≤ g.power
  w : g.wLower < g.wUpper
  t : g.tLower < g.tUpper

/-- The frequency box and the auxiliary box are aligned: both begin at zero or both are symmetric. -/
structure Grid.Built (g : Grid) : Prop where
  n : 2 ≤ g.n
  tU : g.tUpper = ((g.n : ℝ) - 1) * (if g.positive then 1 else 1 / 2)
  tL : g.tLower = if g.positive then 0 else -g.tUpper
  wL : g.wLower = if g.positive then 0 else -g.wUpper

end Verif.Angular
