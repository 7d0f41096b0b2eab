import Verif.Boost.Model

/-! Notions used in the statements of C125 and C126. -/
namespace Verif.Boost

variable {K : Type} [Field K] [LinearOrder K]

/-- What the documentation of Boost guarantees for `try_step`: an accepted step advances `t` by `dt` and proposes
a step in the same direction; a rejected one leaves `t` and shortens `dt`. -/
structure Contract (rk : Stepper K) : Prop where
  done : ∀ i k t dt, dt ≠ 0 → (rk i k t dt).ok = true → (rk i k t dt).t = t + dt ∧ 0 < (rk i k t dt).dt * dt
  rejected : ∀ i k t dt, dt ≠ 0 → (rk i k t dt).ok = false →
    (rk i k t dt).t = t ∧ 0 < (rk i k t dt).dt * dt ∧ |(rk i k t dt).dt| ≤ |dt|

/-- States reached by the loop. -/
inductive Reach (c : Cfg K) (rk : Stepper K) (s : St K) : St K → Prop
  | refl : Reach c rk s s
  | step {s' s'' : St K} : Reach c rk s s' → iterate c rk s' = .ok (some s'') → Reach c rk s s''

/-- The run goes from `ini` to `c.fin`; `σ` is its direction. -/
structure Directed (c : Cfg K) (σ ini : K) : Prop where
  sign : σ = 1 ∨ σ = -1
  eps : 0 ≤ c.eps
  ahead : σ * ini ≤ σ * c.fin

/-- Between the start and the end of the run, up to the tolerance of the comparison at the end. -/
def InBox (c : Cfg K) (σ ini t : K) : Prop := σ * ini ≤ σ * t ∧ σ * t ≤ σ * c.fin + c.eps

/-- On the interval of the run the parametrisation is strictly monotone (increasing for `τ = 1`, decreasing for
`τ = -1`) and undone by `tOf`, which also represents the checkpoints that lie on the way. -/
structure Param (c : Cfg K) (σ τ ini : K) : Prop where
  sign : τ = 1 ∨ τ = -1
  back : ∀ t, InBox c σ ini t → c.tOf (c.lamOf t) = t
  mono : ∀ s t, InBox c σ ini s → InBox c σ ini t → s < t → τ * c.lamOf s < τ * c.lamOf t
  cps : ∀ cp ∈ c.cps, ∀ s t, InBox c σ ini s → InBox c σ ini t → (c.lamOf s - cp) * (c.lamOf t - cp) < 0 →
    InBox c σ ini (c.tOf cp) ∧ c.lamOf (c.tOf cp) = cp

/-- A step from `x` to `y` crosses the checkpoint `cp` by more than the code's tolerance. -/
def Crosses (x y cp : K) : Prop := (x - cp) * (y - cp) < -(1 / 10 ^ 14)

end Verif.Boost
