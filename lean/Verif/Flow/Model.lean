import Mathlib.Algebra.Order.Field.Basic
import Verif.Outcome

/-
Model of the flow loop `ode_solver`, /repo/source/ODE_solvers/ODE_solvers.hpp:445-566, for the adaptive
tableau `cash_carp` that line 452 fixes.  Double-precision numbers are elements of an arbitrary ordered
field.  The step routine `rkqs` is an arbitrary function of the step number, the flow parameter and the trial
step; its guarantees are hypotheses (`Contract`), which `Verif/Flow/Bridge.lean` derives from the model of
`rkqs`.  Printing, saving and the state itself are left out.
-/
namespace Verif.Flow

variable {K : Type} [Field K] [LinearOrder K]

/-- Members of `ODE_solver_config` (ODE_solver_config.hpp:6-64) that steer the loop.  `now` is the mutable
member `Lambda_now` at the start of the call. -/
structure Config (K : Type) where
  maxSteps : Nat
  ini : K
  now : K
  fin : K
  iterStart : Nat
  checkpoints : List K

/-- What `rkqs` returns by reference: new `Lambda`, `hdid`, `hnext` (ODE_solvers.hpp:418-420). -/
structure StepResult (K : Type) where
  lam : K
  hdid : K
  hnext : K

/-- `rkqs` as a function of the iteration number, `Lambda` and `h_try`. -/
abbrev Stepper (K : Type) := Nat → K → K → StepResult K

/-- Variables of the loop, and the vector `lambdas`. -/
structure St (K : Type) where
  i : Nat
  lam : K
  now : K
  h : K
  prev : K
  hit : Bool
  saved : List K

/-- `std::abs(Lambda_f - Lambda) / Lambda_f < 1e-8`, line 516; a vanishing `Lambda_f` gives inf or NaN, for
which the comparison is false. -/
def endReached (fin lam : K) : Bool := decide (fin ≠ 0 ∧ |fin - lam| / fin < 1 / 10^8)

/-- Lines 513-528: `none` if the loop ends, otherwise the trial step. -/
def clampStep (c : Config K) (s : St K) : Option K :=
  if (s.lam + s.h - c.fin) * (s.lam + s.h - s.now) > 0 then
    if endReached c.fin s.lam then none else some (c.fin - s.lam)
  else some s.h

/-- Line 530: `h_try = std::max(h_try_prev, h_try_prev - h_try)` after a checkpoint. -/
def afterHit (s : St K) (h : K) : K := if s.hit then max s.prev (s.prev - h) else h

/-- Lines 535-545: the first checkpoint in the list that the step would cross. -/
def crossed (now h : K) (cps : List K) : Option K :=
  cps.find? (fun cp => decide ((now - cp) * (now + h - cp) < -(1 / 10^10)))

/-- Line 541: the step to the crossed checkpoint, if there is one. -/
def cutStep (now h : K) : Option K → K
  | some x => x - now
  | none => h

/-- One iteration of the loop, lines 496-563; `none`: `break`. -/
def iterate (c : Config K) (rk : Stepper K) (s : St K) : Option (St K) :=
  match clampStep c s with
  | none => none
  | some h₀ =>
    let h₁ := afterHit s h₀
    let cp := crossed s.now h₁ c.checkpoints
    let h₂ := cutStep s.now h₁ cp
    let r := rk s.i s.lam h₂
    some { i := s.i + 1, lam := r.lam, now := s.now + r.hdid,
           h := if cp.isSome then r.hdid else r.hnext, prev := h₁, hit := cp.isSome,
           saved := s.saved.set (s.i + 1) r.lam }

/-- How the loop ended. -/
inductive Stop where
  | endCondition
  | stepLimit
  deriving DecidableEq, Repr

/-- The `for` loop with `n` iterations left; returns the final variables and the reason for stopping. -/
def loop (c : Config K) (rk : Stepper K) : Nat → St K → St K × Stop
  | 0, s => (s, .stepLimit)
  | n + 1, s => match iterate c rk s with
    | none => (s, .endCondition)
    | some s' => loop c rk n s'

/-- `MAXSTP`, line 463. -/
def Config.maxStp (c : Config K) : Nat := c.maxSteps + c.checkpoints.length

/-- Trial step of a resumed flow, lines 483-490, with `t_from_lambda`, `lambda_from_t`, `max_t_step`,
`min_t_step`. -/
def resumeTry (tOf lamOf : K → K) (tMax tMin l0 l1 now : K) : K :=
  let d := tOf l1 - tOf l0
  let d := min |d| tMax
  let d := max |d| tMin
  lamOf (tOf now + d) - now

/-- Initial trial step, lines 481-494.  `grid` is `lambdas_try`, `lambdas` the list of saved values.
Reading outside either vector is undefined behaviour. -/
def initialTry (tOf lamOf : K → K) (tMax tMin : K) (c : Config K) (grid lambdas : List K) : Res K :=
  if 0 < c.iterStart then
    match lambdas[c.iterStart - 1]?, lambdas[c.iterStart]? with
    | some l0, some l1 => .ok (resumeTry tOf lamOf tMax tMin l0 l1 c.now)
    | _, _ => .error .undefined
  else
    match grid[c.iterStart + 1]?, grid[c.iterStart]? with
    | some g1, some g0 => .ok (g1 - g0)
    | _, _ => .error .undefined

/-- Variables when the loop is entered; `h_try_prev` is 0, the list of saved values has `MAXSTP + 1`
entries (line 464). -/
def start (c : Config K) (lambdas : List K) (h : K) : St K :=
  { i := c.iterStart, lam := c.now, now := c.now, h := h, prev := 0, hit := false, saved := lambdas }

/-- The whole loop; the result also shows what is left in the mutable member `Lambda_now`. -/
def solve (c : Config K) (rk : Stepper K) (lambdas : List K) (h : K) : St K × Stop :=
  loop c rk (c.maxStp - c.iterStart) (start c lambdas h)

end Verif.Flow
