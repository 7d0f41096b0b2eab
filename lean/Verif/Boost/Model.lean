import Mathlib.Algebra.Order.Field.Basic
import Verif.Outcome

/-
Model of the flow driver built on the Boost steppers: `integrate_adaptive_check` and `ode_solver_boost`,
/repo/source/ODE_solvers/ODE_solvers.hpp:635-766, in the default build (`REPARAMETRIZE_FLOWGRID` defined,
master_parameters.hpp:96).  Doubles are elements of an ordered field.  `stepper.try_step` of the Boost library
is an arbitrary function (`Stepper`), its documented guarantees are hypotheses (`Contract` in Spec).  Printing,
saving and the state that is integrated are left out.
-/
namespace Verif.Boost

variable {K : Type} [Field K] [LinearOrder K]

/-- Parametrisation of the flow, members of `ODE_solver_config`, and the tolerance `eps` of the Boost
comparison. -/
structure Cfg (K : Type) where
  tOf : K → K
  lamOf : K → K
  /-- `t_final` -/
  fin : K
  /-- `lambda_checkpoints` -/
  cps : List K
  /-- `max_stepResizing_attempts` -/
  maxTrials : Nat
  /-- `MAXSTP` -/
  maxStp : Nat
  eps : K

/-- Outcome of `try_step`: success or failure, and the new values of the reference arguments `t`, `dt`. -/
structure Attempt (K : Type) where
  ok : Bool
  t : K
  dt : K

/-- `try_step` as a function of the number of the iteration and of the trial, of `t` and `dt`. -/
abbrev Stepper (K : Type) := Nat → Nat → K → K → Attempt K

/-- `less_with_sign(t1, t2, dt)` of Boost (odeint/util/detail/less_with_sign.hpp). -/
def less (eps a b d : K) : Prop := if 0 < d then b - a > eps else a - b > eps

instance (eps a b d : K) : Decidable (less eps a b d) := by unfold less; infer_instance

/-- Variables of `integrate_adaptive_check`: `t_now`, `dt`, `previously_hit_lambda_checkpoint`, `dt_temp`
(uninitialised until the first checkpoint, and not read before), `integration_step_count` and the vector
`lambdas_did`. -/
structure St (K : Type) where
  t : K
  dt : K
  hit : Bool
  dtTemp : K
  count : Nat
  saved : List K

/-- `do … while (res == fail && trials < max)`, lines 687-719: `f` is the stepper in this iteration, the first
number is `max - trials` before the attempt. Result: last attempt and number of trials. -/
def trialLoop (f : Nat → K → K → Attempt K) : Nat → Nat → K → K → Attempt K × Nat
  | n + 2, k, t, dt =>
    let r := f k t dt
    if r.ok then (r, k + 1) else trialLoop f (n + 1) (k + 1) r.t r.dt
  | _, k, t, dt => (f k t dt, k + 1)

/-- Line 658: the step size an iteration starts from. -/
def proposed (s : St K) : K := if s.hit then s.dtTemp else s.dt

/-- Lines 659-662: not beyond the end. -/
def clipped (c : Cfg K) (s : St K) : K :=
  if less c.eps c.fin (s.t + proposed s) (proposed s) then c.fin - s.t else proposed s

/-- Lines 669-679: first checkpoint in the list that the step would cross. -/
def crossing (c : Cfg K) (s : St K) : Option K :=
  c.cps.find? fun cp => decide ((c.lamOf s.t - cp) * (c.lamOf (s.t + clipped c s) - cp) < -(1 / 10 ^ 14))

/-- Line 676: step of the first trial. -/
def firstTrial (c : Cfg K) (s : St K) : K :=
  match crossing c s with
  | some cp => c.tOf cp - c.tOf (c.lamOf s.t)
  | none => clipped c s

/-- One pass through the loop of `integrate_adaptive_check`, lines 656-734; `none`: the condition of the `while`
fails.  The check of `MAXSTP` at the end of the body is in `loop`. -/
def iterate (c : Cfg K) (rk : Stepper K) (s : St K) : Res (Option (St K)) :=
  if ¬ less c.eps s.t c.fin s.dt then return none
  else do
    let cp := crossing c s
    let (r, trials) := trialLoop (rk s.count) c.maxTrials 0 s.t (firstTrial c s)
    if trials = c.maxTrials then throw .exception
    if s.count + 1 < s.saved.length then
      return some { t := r.t, dt := r.dt, hit := s.hit || cp.isSome,
                    dtTemp := if cp.isSome then clipped c s else s.dtTemp,
                    count := s.count + 1, saved := s.saved.set (s.count + 1) (c.lamOf r.t) }
    else throw .undefined

/-- The loop with its limit on the number of steps, lines 656-736; the first argument bounds the recursion. -/
def loop (c : Cfg K) (rk : Stepper K) : Nat → St K → Res (St K)
  | 0, s => .ok s
  | n + 1, s => do
    match ← iterate c rk s with
    | none => return s
    | some s' => if s'.count ≥ c.maxStp then return s' else loop c rk n s'

/-- Line 765: the first step size; `d` is `dLambda_initial` (master_parameters.hpp:113). -/
def firstStep (tOf : K → K) (d ini fin : K) (maxStp : Nat) : K :=
  if (fin - ini) * d > 1 / 10 ^ 15 then tOf (ini + d) - tOf ini else (tOf fin - tOf ini) / (maxStp : K)

/-- `ode_solver_boost`, lines 742-769, up to the call of the driver: the run starts at `Lambda_i`, at the
iteration number `iter_start`; `lambdas_did` has `MAXSTP + 1` entries. -/
def start (tOf : K → K) (d ini fin : K) (iterStart maxStp : Nat) : St K :=
  { t := tOf ini, dt := firstStep tOf d ini fin maxStp, hit := false, dtTemp := 0, count := iterStart,
    saved := (List.replicate (maxStp + 1) 0).set 0 ini }

/-- `ode_solver_boost`: `maxSteps` is `maximal_number_of_ODE_steps`. -/
def solve (tOf lamOf : K → K) (eps d ini fin : K) (cps : List K) (maxSteps maxTrials iterStart : Nat)
    (rk : Stepper K) : Res (St K) :=
  let maxStp := maxSteps + cps.length
  loop ⟨tOf, lamOf, tOf fin, cps, maxTrials, maxStp, eps⟩ rk (maxStp + 1) (start tOf d ini fin iterStart maxStp)

end Verif.Boost
