import Mathlib.Analysis.Normed.Module.Basic
import Mathlib.Analysis.Real.Sqrt

/-
Specification of adaptive integration with an error test.
-/
namespace Verif.Quad

variable {E : Type} [NormedAddCommGroup E] [NormedSpace ℝ E]

/-- The point of the interval at the position `x` of the reference interval `[-1, 1]`. -/
noncomputable def point (a b x : ℝ) : ℝ := (a + b) / 2 + x * ((b - a) / 2)

/-- The Lobatto rule with four points. -/
noncomputable def four (f : ℝ → E) (a b : ℝ) : E :=
  ((b - a) / 12) • (f a + f b + (5 : ℝ) • (f (point a b (-(1 / √5))) + f (point a b (1 / √5))))

/-- Its extension to seven points. -/
noncomputable def seven (f : ℝ → E) (a b : ℝ) : E :=
  ((b - a) / 2940) • ((77 : ℝ) • (f a + f b) + (432 : ℝ) • (f (point a b (-√(2 / 3))) + f (point a b √(2 / 3))) +
    (625 : ℝ) • (f (point a b (-(1 / √5))) + f (point a b (1 / √5))) + (672 : ℝ) • f (point a b 0))

/-- `v` is a sum of seven-point rules over adjoining intervals from `a` to `b`, each of which passes the test `P`. -/
inductive Pieces (f : ℝ → E) (P : ℝ → ℝ → Prop) : ℝ → ℝ → E → Prop
  | one {a b : ℝ} : a < b → P a b → Pieces f P a b (seven f a b)
  | join {a c b : ℝ} {v w : E} : Pieces f P a c v → Pieces f P c b w → Pieces f P a b (v + w)

/-- The error test of an interval: the two rules differ by less than the larger of the machine precision and the relative
tolerance times the estimate of the whole integral. -/
def Test (f : ℝ → E) (rel : ℝ) (whole : E) (a b : ℝ) : Prop :=
  ‖seven f a b - four f a b‖ < max (1 / 2 ^ 52) (rel * ‖whole‖)

/-- The relative tolerance: the requested one, but at least ten times the machine precision; if the seven-point rule is
closer to the estimate of the whole integral than the four-point rule, larger by the ratio of the two distances. -/
structure Tolerance (f : ℝ → E) (requested : ℝ) (whole : E) (a b rel : ℝ) : Prop where
  better : 0 < ‖seven f a b - whole‖ → ‖seven f a b - whole‖ < ‖four f a b - whole‖ →
    rel = max requested (10 / 2 ^ 52) * (‖four f a b - whole‖ / ‖seven f a b - whole‖)
  other : ‖seven f a b - whole‖ = 0 ∨ ‖four f a b - whole‖ ≤ ‖seven f a b - whole‖ → rel = max requested (10 / 2 ^ 52)

end Verif.Quad
