import Mathlib.Analysis.SpecialFunctions.Pow.Real

/-
Model of the adaptive step-size control `rkqs`, /repo/source/ODE_solvers/ODE_solvers.hpp:303-424.
Double-precision numbers are real numbers; a step that is not a number is `none`; an error estimate is a real
number, infinite or not a number.  The error estimate of an attempt (`rk_step`, `max_rel_err`) is an
arbitrary function of the attempt number and of the step, so every right-hand side is covered.
-/
namespace Verif.StepControl

/-- Possible values of the error estimate `errmax`. -/
inductive Err where
  | nan
  | inf
  | num (e : ℝ)

/-- `sgn`, /repo/source/utilities/math_utils.c++:21-23: `(x >= 0) - (x <= 0)`. -/
noncomputable def sgn (x : ℝ) : ℝ := (if x ≥ 0 then 1 else 0) - (if x ≤ 0 then 1 else 0)

/-- `errmax <= 1.` -/
def Err.atMostOne : Err → Prop
  | .nan => False
  | .inf => False
  | .num e => e ≤ 1

/-- `pow(errmax, p)` for a negative exponent. -/
noncomputable def Err.powNeg (p : ℝ) : Err → Option ℝ
  | .nan => none
  | .inf => some 0
  | .num e => some (e ^ p)

/-- `errmax > bound` -/
def Err.exceeds (b : ℝ) : Err → Prop
  | .nan => False
  | .inf => True
  | .num e => b < e

/-- The constants of a call: `min_t_step`, `max_t_step`, `config.max_stepResizing_attempts`, and the test
`t_value + t_step == t_value` of the machine's arithmetic. -/
structure Settings where
  minStep : ℝ
  maxStep : ℝ
  maxAttempts : Nat
  absorbed : ℝ → Prop

/-- `t_step = sgn(t_step) * std::max({|t_step_resized|, 0.1 |t_step|, min_t_step})` with
`t_step_resized = SAFETY * t_step * pow(errmax, PSHRINK)`, ODE_solvers.hpp:378-379.  `std::max` of a list
starting with NaN is NaN. -/
noncomputable def resize (s : Settings) (t : Option ℝ) (e : Err) : Option ℝ :=
  match t, e.powNeg (-(1/4)) with
  | some t, some p => some (sgn t * max (max |4/5 * t * p| (1/10 * |t|)) s.minStep)
  | _, _ => none

/-- How the loop is left. -/
inductive Exit where
  /-- the step is taken: step, error estimate of the accepted attempt, flag `rejected`, attempts made -/
  | accept (t : Option ℝ) (e : Err) (rejected : Bool) (attempts : Nat)
  /-- "Stepsize underflow": `std::runtime_error` -/
  | underflow

/-- `std::abs(t_step) <= min_t_step` -/
def stepMinimal (s : Settings) : Option ℝ → Prop
  | none => False
  | some t => |t| ≤ s.minStep

/-- `t_value + t_step == t_value` (false for NaN) -/
def stepAbsorbed (s : Settings) : Option ℝ → Prop
  | none => False
  | some t => s.absorbed t

open Classical in
/-- The loop, ODE_solvers.hpp:326-391, for an adaptive tableau.  `n` counts the attempts made (only used to
let the error estimate depend on the attempt).  The code's counter `attempts` is initialised to 0 (line 323)
and never changed; it is the argument `attempts`.  `none`: not finished after `fuel` iterations. -/
noncomputable def loop (s : Settings) (err : Nat → Option ℝ → Err) (attempts : Nat) :
    Nat → Nat → Option ℝ → Bool → Option Exit
  | 0, _, _, _ => none
  | fuel + 1, n, t, rejected =>
    let e := err n t
    if e.atMostOne ∨ stepMinimal s t then some (.accept t e rejected (n + 1))
    else if attempts > s.maxAttempts then some (.accept t e rejected (n + 1))
    else
      let t' := resize s t e
      if stepAbsorbed s t' then some .underflow
      else loop s err attempts fuel (n + 1) t' true

/-- The loop as the function enters it (lines 318-326). -/
noncomputable def run (s : Settings) (err : Nat → Option ℝ → Err) (fuel : Nat) (t : ℝ) : Option Exit :=
  loop s err 0 fuel 0 (some t) false

open Classical in
/-- The proposal for the next step before clipping, ODE_solvers.hpp:393-412. -/
noncomputable def proposal (t : ℝ) (e : Err) (rejected : Bool) : ℝ :=
  let grown := if e.exceeds ((2 / (4/5)) ^ (-(1/5) : ℝ)) then 4/5 * t * (e.powNeg (-(1/5))).getD 0 else 2 * t
  if rejected then sgn t * min |grown| |t| else grown

/-- Clipping, ODE_solvers.hpp:416. -/
noncomputable def nextStep (s : Settings) (t : ℝ) (e : Err) (rejected : Bool) : ℝ :=
  let p := proposal t e rejected
  sgn p * min (max s.minStep |p|) s.maxStep

end Verif.StepControl
