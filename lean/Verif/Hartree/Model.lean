import Verif.Outcome
import Mathlib.Data.Real.Basic
import Mathlib.Analysis.SpecialFunctions.Trigonometric.Arctan

/-
Model of the self-consistency loops of /repo/source/perturbation_theory_and_parquet/hartree_term.c++.
The occupation computed from the self-energy `U * n` (compute_filling_oneshot, an integral) is an
arbitrary function `F` of `n`; `none` is the value NaN.  Doubles are real numbers.  The returned Hartree
value is `U` times the occupation modelled here.
-/
namespace Verif.Hartree

/-- State of a loop: still running with the bracket `[lo, hi]`, or finished with an occupation. -/
inductive BState
  | going (lo hi : ℝ)
  | done (n : ℝ)

/-- One pass of the loop body of `compute_Hartree_term_bracketing` including the loop condition evaluated
after it, hartree_term.c++:50-70. -/
noncomputable def bstep (F : ℝ → Option ℝ) (thr lo hi : ℝ) : BState :=
  let m := (lo + hi) / 2
  match F m with
  | none => .done m                                   -- NaN: neither branch is taken, line 66-69
  | some y =>
    if y - m > 0 then (if |y - m| > thr then .going m hi else .done m)
    else if y - m < 0 then (if |y - m| > thr then .going lo m else .done m)
    else .done m

/-- The loop, hartree_term.c++:50-70; the first argument is the number of iterations the assertion
`n_iter < 1e5` still admits. -/
noncomputable def bloop (F : ℝ → Option ℝ) (thr : ℝ) : ℕ → ℝ → ℝ → Res ℝ
  | 0, _, _ => .error .assertion
  | k + 1, lo, hi =>
    match bstep F thr lo hi with
    | .done n => .ok n
    | .going lo' hi' => bloop F thr k lo' hi'

/-- The bracket after `k` iterations (if the loop is still running). -/
noncomputable def bracketAfter (F : ℝ → Option ℝ) (thr : ℝ) : ℕ → BState
  | 0 => .going 0 1
  | k + 1 =>
    match bracketAfter F thr k with
    | .done n => .done n
    | .going lo hi => bstep F thr lo hi

/-- `compute_Hartree_term_bracketing`, hartree_term.c++:44-78, with an iteration budget (100000 in the
code): the initial deviation is 1 and the stored occupation 1/2. -/
noncomputable def bracketing (budget : ℕ) (F : ℝ → Option ℝ) (thr : ℝ) : Res ℝ :=
  if 1 > thr then bloop F thr budget 0 1 else .ok (1 / 2)

/-- `compute_Hartree_term`, hartree_term.c++:25-42, observed for `fuel` iterations: `none` if it is still
running, otherwise the returned occupation (`some none` is NaN).  There is no iteration cap. -/
noncomputable def fixLoop (F : ℝ → Option ℝ) (thr : ℝ) : ℕ → ℝ → Option (Option ℝ)
  | 0, _ => none
  | k + 1, n =>
    match F n with
    | none => some none                               -- diff is NaN, the loop condition is false
    | some y => if |y - n| > thr then fixLoop F thr k y else some (some y)

/-- Right-hand side of the Friedel sum rule, hartree_term.c++:90-91. -/
noncomputable def friedelMap (U eps Delta n : ℝ) : ℝ :=
  1 / 2 - 1 / Real.pi * Real.arctan ((U * (1/2) + eps) / Delta + U / Delta * (n - 1 / 2))

/-- The loop of `compute_Hartree_term_Friedel`, hartree_term.c++:87-95; the first argument is the number of
iterations the assertion `counter < 1e5` still admits. -/
noncomputable def friedelLoop (f : ℝ → ℝ) (thr : ℝ) : ℕ → ℝ → Res ℝ
  | 0, _ => .error .assertion
  | k + 1, n => if |n - f n| > thr then friedelLoop f thr k (f n) else .ok (f n)

/-- `compute_Hartree_term_Friedel`, hartree_term.c++:81-96 (threshold below 1), with an iteration
budget (100000 in the code). -/
noncomputable def friedel (budget : ℕ) (U eps Delta thr : ℝ) : Res ℝ :=
  friedelLoop (friedelMap U eps Delta) thr budget (1 / 2)

end Verif.Hartree
