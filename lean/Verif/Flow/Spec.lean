import Verif.Flow.Model

/-! Notions used in the statements of C15–C18. -/
namespace Verif.Flow

variable {K : Type} [Field K] [LinearOrder K]

/-- What the flow loop relies on when it calls the step routine: the flow parameter is advanced by `hdid`,
which has the direction of the trial step and is at most as long. -/
structure Contract (rk : Stepper K) : Prop where
  advance : ∀ i lam h, (rk i lam h).lam = lam + (rk i lam h).hdid
  short : ∀ i lam h, 0 ≤ (rk i lam h).hdid * h ∧ |(rk i lam h).hdid| ≤ |h|

/-- States reached by the loop after some iterations. -/
inductive Reach (c : Config K) (rk : Stepper K) (s : St K) : St K → Prop
  | refl : Reach c rk s s
  | step {s' s'' : St K} : Reach c rk s s' → iterate c rk s' = some s'' → Reach c rk s s''

/-- `x` lies between `a` and `b` (in either order). -/
def Between (a b x : K) : Prop := min a b ≤ x ∧ x ≤ max a b

/-- A step from `x` to `y` crosses the checkpoint `cp` by more than the code's tolerance. -/
def Crosses (x y cp : K) : Prop := (x - cp) * (y - cp) < -(1 / 10^10)

end Verif.Flow
