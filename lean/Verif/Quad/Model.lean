import Mathlib.Analysis.Normed.Module.Basic
import Mathlib.Analysis.Real.Sqrt
import Mathlib.Data.List.Sort

/-
Numerical integration: source/integrator/integrator_NR.hpp and the wrappers in source/integrator/integrator.hpp.

The values of an integrand are in a real normed space `E` (numbers, complex numbers, 4x4 matrices with the maximum
norm, data_structures.hpp:29-40).  Numbers are real numbers: rounding is not modelled.  Recursion is bounded by a
number of levels; `none` means that more levels are needed.
-/
namespace Verif.Quad

variable {E : Type} [NormedAddCommGroup E] [NormedSpace ℝ E]

/-- `alpha`, integrator_NR.hpp:153-154. -/
noncomputable def alpha : ℝ := √(2 / 3)

/-- `beta`, lines 155-156. -/
noncomputable def beta : ℝ := 1 / √5

/-- `x1`, `x2`, `x3`, lines 157-162. -/
noncomputable def x1 : ℝ := 942882415695480 / 10 ^ 15
noncomputable def x2 : ℝ := 641853342345781 / 10 ^ 15
noncomputable def x3 : ℝ := 236383199662150 / 10 ^ 15

/-- `Gauss_Lobatto_4`, lines 33-36. -/
noncomputable def lobatto4 (h : ℝ) (f1 f2 f3 f4 : E) : E := (h / 6) • (f1 + f4 + (5 : ℝ) • (f2 + f3))

/-- `Gauss_Kronrod_7`, lines 38-44. -/
noncomputable def kronrod7 (h : ℝ) (f1 f2 f3 f4 f5 f6 f7 : E) : E :=
  (h / 1470) • ((77 : ℝ) • (f1 + f7) + (432 : ℝ) • (f2 + f6) + (625 : ℝ) • (f3 + f5) + (672 : ℝ) • f4)

/-- `Gauss_Kronrod_13`, lines 46-56. -/
noncomputable def kronrod13 (h : ℝ) (f1 f2 f3 f4 f5 f6 f7 f8 f9 f10 f11 f12 f13 : E) : E :=
  h • ((158271919734802 / 10 ^ 16 : ℝ) • (f1 + f13) + (942738402188500 / 10 ^ 16 : ℝ) • (f2 + f12) +
    (155071987336585 / 10 ^ 15 : ℝ) • (f3 + f11) + (188821573960182 / 10 ^ 15 : ℝ) • (f4 + f10) +
    (199773405226859 / 10 ^ 15 : ℝ) • (f5 + f9) + (224926465333340 / 10 ^ 15 : ℝ) • (f6 + f8) +
    (242611071901408 / 10 ^ 15 : ℝ) • f7)

/-- `tolerance_abs`, line 16: machine precision, `2⁻⁵²`. -/
noncomputable def tolAbs : ℝ := 1 / 2 ^ 52

/-- The recursive `integrate`, lines 114-150: `fa`, `fb` are the values at the ends, `is` the estimate of the
whole integral. -/
noncomputable def refine (f : ℝ → E) (tolRel : ℝ) (is : E) : Nat → ℝ → ℝ → E → E → Option E
  | 0, _, _, _, _ => none
  | n + 1, a, b, fa, fb =>
    let m := 1 / 2 * (a + b)
    let h := 1 / 2 * (b - a)
    let y0 := m - alpha * h
    let y1 := m - beta * h
    let y2 := m
    let y3 := m + beta * h
    let y4 := m + alpha * h
    let i1 := lobatto4 h fa (f y1) (f y3) fb
    let i2 := kronrod7 h fa (f y0) (f y1) (f y2) (f y3) (f y4) fb
    open Classical in
    if ‖i2 - i1‖ < max tolAbs (tolRel * ‖is‖) ∨ y0 < a ∨ b < y4 then some i2
    else do
      let s1 ← refine f tolRel is n a y0 fa (f y0)
      let s2 ← refine f tolRel is n y0 y1 (f y0) (f y1)
      let s3 ← refine f tolRel is n y1 y2 (f y1) (f y2)
      let s4 ← refine f tolRel is n y2 y3 (f y2) (f y3)
      let s5 ← refine f tolRel is n y3 y4 (f y3) (f y4)
      let s6 ← refine f tolRel is n y4 b (f y4) fb
      return s1 + s2 + s3 + s4 + s5 + s6

/-- The tolerance after the constructor, lines 20-23. -/
noncomputable def clampTol (tol : ℝ) : ℝ := open Classical in if tol < 10 * tolAbs then 10 * tolAbs else tol

/-- The 13-point estimate of `integrate`, lines 59-83. -/
noncomputable def estimate13 (f : ℝ → E) (a b : ℝ) : E :=
  let m := 1 / 2 * (b + a)
  let h := 1 / 2 * (b - a)
  kronrod13 h (f a) (f (m + -x1 * h)) (f (m + -alpha * h)) (f (m + -x2 * h)) (f (m + -beta * h)) (f (m + -x3 * h))
    (f (m + 0 * h)) (f (m + x3 * h)) (f (m + beta * h)) (f (m + x2 * h)) (f (m + alpha * h)) (f (m + x1 * h)) (f b)

/-- `tolerance_rel`, lines 85-90, from the three estimates. -/
noncomputable def scaledTol (tol : ℝ) (i1 i2 is : E) : ℝ :=
  open Classical in
  let e1 := ‖i1 - is‖
  let e2 := ‖i2 - is‖
  let r := if e1 ≠ 0 then e2 / e1 else 1
  if 0 < r ∧ r < 1 then tol / r else tol

/-- `integrate(a, b)`, lines 58-112, with at most `n` levels of subdivision. -/
noncomputable def integrate (tol : ℝ) (f : ℝ → E) (n : Nat) (a b : ℝ) : Option E :=
  open Classical in
  let m := 1 / 2 * (b + a)
  let h := 1 / 2 * (b - a)
  let y2 := m + -alpha * h
  let y4 := m + -beta * h
  let y6 := m + 0 * h
  let y8 := m + beta * h
  let y10 := m + alpha * h
  let i1 := lobatto4 h (f a) (f y4) (f y8) (f b)
  let i2 := kronrod7 h (f a) (f y2) (f y4) (f y6) (f y8) (f y10) (f b)
  let is := estimate13 f a b
  let tolRel := scaledTol (clampTol tol) i1 i2 is
  if ‖is‖ < 1 / 10 ^ 20 ∨ b ≤ a then some 0
  else if (‖i2 - i1‖ < max tolAbs (tolRel * ‖is‖) ∧ ‖i2 - is‖ < max tolAbs (tolRel * ‖is‖)) ∨ b - a < tolAbs then
    some i2
  else do
    let s1 ← refine f tolRel is n a y2 (f a) (f y2)
    let s2 ← refine f tolRel is n y2 y4 (f y2) (f y4)
    let s3 ← refine f tolRel is n y4 y6 (f y4) (f y6)
    let s4 ← refine f tolRel is n y6 y8 (f y6) (f y8)
    let s5 ← refine f tolRel is n y8 y10 (f y8) (f y10)
    let s6 ← refine f tolRel is n y10 b (f y10) (f b)
    return s1 + s2 + s3 + s4 + s5 + s6

/-- `Adapt_semiInfinitUpper::integrate`, lines 170-181 and 195-210: the part of the integral above `c`. -/
noncomputable def upperTail (tol : ℝ) (f : ℝ → E) (n : Nat) (c : ℝ) : Option E :=
  integrate tol (fun x => (1 / (x * x)) • f (c + (1 - x) / x)) n (1 / 10 ^ 14) 1

/-- `Adapt_semiInfinitLower::integrate`, lines 182-193 and 213-228: the part of the integral below `c`. -/
noncomputable def lowerTail (tol : ℝ) (f : ℝ → E) (n : Nat) (c : ℝ) : Option E :=
  integrate tol (fun x => (1 / (x * x)) • f (c - (1 - x) / x)) n (1 / 10 ^ 14) 1

/-! Wrappers.  They are modelled for arbitrary integrators of an interval and of the two tails. -/

/-- `integrator(integrand, a, b, w1, w2, Delta, isinf)`, integrator.hpp:350-375.  `I`, `J`: integrators with the
usual and with ten times the usual tolerance; `L`, `U`: integrators of the tails. -/
noncomputable def split (I J : ℝ → ℝ → E) (L U : ℝ → E) (a b w1 w2 Delta : ℝ) (isinf : Bool) : E :=
  let s := [a, w1 - Delta, w1 + Delta, w2 - Delta, w2 + Delta, b].insertionSort (· ≤ ·)
  let at' := fun i => s.getD i 0
  let r := 0 + I (at' 3) (at' 4) + I (at' 1) (at' 2) + J (at' 0) (at' 1) + J (at' 2) (at' 3) + J (at' 4) (at' 5)
  if isinf then r + L (at' 0) + U (at' 5) else r

end Verif.Quad
