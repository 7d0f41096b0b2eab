import Verif.Hybrid.Model

/-
Specification of a grid map.
-/
namespace Verif.Hybrid

/-- The parameters make sense: sections in order, at least two points. -/
structure Grid.Valid (g : Grid) : Prop where
  p0 : 0 < g.p0
  p01 : g.p0 ≤ g.p1
  p1w : g.p1 ≤ g.wUpper
  t : 0 < g.tUpper

/-- The grid is the one the constructor makes: points at unit distance on the auxiliary axis, symmetric or starting at
zero. -/
structure Grid.Built (g : Grid) : Prop where
  n : 2 ≤ g.n
  tU : g.tUpper = ((g.n : ℝ) - 1) * (if g.positive then 1 else 1 / 2)
  tL : g.tLower = if g.positive then 0 else -g.tUpper
  wL : g.wLower = if g.positive then 0 else -g.wUpper

end Verif.Hybrid
