import Verif.Outcome
import Mathlib.Analysis.Normed.Module.Basic
import Mathlib.Analysis.Normed.Field.Basic
import Mathlib.Algebra.Order.Floor.Ring
import Mathlib.Data.Real.Archimedean

/-
Simpson integrators, source/integrator/old_integrators.hpp.  Numbers are real, values in a real normed space or
normed field; rounding is not modelled.
-/
namespace Verif.Simpson

section
variable {E : Type} [NormedAddCommGroup E] [NormedSpace ℝ E]

/-- The weights, lines 66-71. -/
def weight (N i : Nat) : ℝ := if i = N - 1 then 1 else if i = 0 then 1 else 2 + 2 * ((i % 2 : Nat) : ℝ)

/-- The sum computed by `integrator_simpson`, lines 61-77, if `dotproduct` starts from zero.  Line 60: at least three
points. -/
noncomputable def simpsonSum (f : ℝ → E) (a b : ℝ) (N : Int) : E :=
  let n := (if N < 3 then 3 else N).toNat
  let dx := (b - a) / ((n : ℝ) - 1)
  (dx / 3) • ∑ i ∈ Finset.range n, weight n i • f (a + i * dx)

/-- `integrator_simpson(integrand, a, b, N)`.  In `dotproduct` (lines 18-25) the local variable `Q res;` is not
initialised: for `Q = double` it is read before it is written; the constructor of `std::complex` sets it to zero. -/
noncomputable def simpson (isDouble : Bool) (f : ℝ → E) (a b : ℝ) (N : Int) : Res E :=
  if isDouble then .error .undefined else .ok (simpsonSum f a b N)

/-- `if (!(N % 2)) N += 1;` -/
def makeOdd (N : Int) : Int := if N % 2 = 0 then N + 1 else N

/-- `(int) x`. -/
noncomputable def toInt (x : ℝ) : Int := open Classical in if x < 0 then -⌊-x⌋ else ⌊x⌋

/-- `integrator_simpson(integrand, a, b, w, N)`, lines 86-105, with `Q = comp`.  For `a = b` a quotient by zero is
converted to an integer. -/
noncomputable def simpsonFeature (f : ℝ → E) (a b w : ℝ) (N : Int) : Res E :=
  open Classical in
  let Delta : ℝ := 2 * 1
  let Nw := makeOdd (N.tdiv 5)
  if b - a = 0 then .error .undefined
  else
    let Na := makeOdd (toInt (N * (w - a) / (b - a)))
    let Nb := makeOdd (toInt (N * (b - w) / (b - a)))
    .ok (0 + simpsonSum f a (w - Delta) Na + simpsonSum f (w - Delta) (w + Delta) Nw + simpsonSum f (w + Delta) b Nb)

/-- `integrator_simpson(integrand, a, b, w1_in, w2_in, N)`, lines 114-171, with `Q = comp`. -/
noncomputable def simpsonTwo (f : ℝ → E) (a b w1in w2in : ℝ) (N : Int) : Res E :=
  open Classical in
  let Delta : ℝ := 5 * 1
  let Nw := makeOdd (N.tdiv 10)
  let w1 := if w1in < w2in then w1in else w2in
  let w2 := if w1in < w2in then w2in else w1in
  if b - w2 > Delta then
    if b - a = 0 then .error .undefined
    else
      let Na := makeOdd (toInt (N * (w1 - a) / (b - a)))
      let Nb := makeOdd (toInt (N * (b - w2) / (b - a)))
      let r := 0 + simpsonSum f a (w1 - Delta) Na + simpsonSum f (w2 + Delta) b Nb
      if w2 - w1 > 10 * Delta then
        let Nc := makeOdd (toInt (N * (w2 - w1) / (b - a)))
        .ok (r + simpsonSum f (w1 - Delta) (w1 + Delta) Nw + simpsonSum f (w1 + Delta) (w2 - Delta) Nc +
          simpsonSum f (w2 - Delta) (w2 + Delta) Nw)
      else
        let Nc := makeOdd (toInt (Nw * (w2 - w1 + 2 * Delta) / (2 * Delta)))
        .ok (r + simpsonSum f (w1 - Delta) (w2 + Delta) Nc)
  else
    .ok (0 + simpsonSum f a (w1 + Delta) Nw + simpsonSum f (w1 + Delta) (w2 - Delta) N +
      simpsonSum f (w2 - Delta) b Nw)

end

section
variable {K : Type} [NormedField K] [NormedSpace ℝ K]

/-- A sub-interval of `adaptive_simpson_integrator` (lines 198-321): three points, the values there, the result and the
flag.  (The code stores points and values of adjacent sub-intervals in shared vectors.) -/
structure Cell (K : Type) where
  x0 : ℝ
  x1 : ℝ
  x2 : ℝ
  f0 : K
  f1 : K
  f2 : K
  res : K
  conv : Bool

/-- `simpson_rule_3`, lines 175-178. -/
noncomputable def rule3 (v0 v1 v2 : K) (dx : ℝ) : K := (dx / 3) • (v0 + (4 : ℝ) • v1 + v2)

/-- The first sub-interval, lines 206-219. -/
noncomputable def start (f : ℝ → K) (a b : ℝ) : Cell K :=
  let dx := (b - a) / 2
  let p := fun i : Nat => a + i * dx
  ⟨p 0, p 1, p 2, f (p 0), f (p 1), f (p 2), rule3 (f (p 0)) (f (p 1)) (f (p 2)) dx, false⟩

/-- The test of line 283.  A quotient with a zero denominator is not a number and fails every comparison. -/
def closeEnough (num den : K) (tol : ℝ) : Prop := den ≠ 0 ∧ ‖num / den‖ < tol

/-- The two halves of a sub-interval, lines 249-291. -/
noncomputable def halve (f : ℝ → K) (dx : ℝ) (c : Cell K) : List (Cell K) :=
  open Classical in
  let l1 := c.x0 + dx
  let r1 := c.x1 + dx
  let result1 := rule3 c.f0 (f l1) c.f1 dx
  let result2 := rule3 c.f1 (f r1) c.f2 dx
  let ok := decide (closeEnough (result1 + result2 - c.res) (result1 + result2 + (1 / 10 ^ 16 : ℝ) • (1 : K)) (1 / 10 ^ 3))
  [⟨c.x0, l1, c.x1, c.f0, f l1, c.f1, result1, ok⟩, ⟨c.x1, r1, c.x2, c.f1, f r1, c.f2, result2, ok⟩]

/-- One pass over all sub-intervals, lines 232-292. -/
noncomputable def pass (f : ℝ → K) (dx : ℝ) (it : Nat) (cells : List (Cell K)) : List (Cell K) :=
  cells.flatMap fun c => if c.conv ∧ it > 3 then [{ c with conv := true }] else halve f dx c

/-- The loop, lines 222-318: `none` if more than the given number of passes is needed. -/
noncomputable def loop (f : ℝ → K) (Nmax : Nat) : Nat → Nat → ℝ → List (Cell K) → K → Option K
  | 0, _, _, _, _ => none
  | fuel + 1, it, dx, cells, res =>
    open Classical in
    let next := pass f (dx / 2) it cells
    let resNext := (next.map Cell.res).sum
    if closeEnough (res - resNext) res (1 / 10 ^ 4) then some resNext
    else if (next.filter Cell.conv).length = next.length then some resNext
    else if 2 * next.length + 1 > Nmax then some resNext
    else loop f Nmax fuel (it + 1) (dx / 2) next resNext

/-- `adaptive_simpson_integrator(integrand, a, b, Nmax)`. -/
noncomputable def adaptive (f : ℝ → K) (a b : ℝ) (Nmax fuel : Nat) : Option K :=
  loop f Nmax fuel 0 ((b - a) / 2) [start f a b] (start f a b).res

end

end Verif.Simpson
