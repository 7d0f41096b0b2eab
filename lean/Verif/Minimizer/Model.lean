import Verif.Outcome
import Mathlib.Data.Real.Basic

/-
Model of the bracketing phase of `minimizer`, /repo/source/utilities/minimizer.hpp:38-97.  Doubles are real
numbers; a cost of `none` is NaN, with which every comparison is false.  The GSL minimiser that follows
is not modelled; the handover to it (gsl_min_fminimizer_set, line 104) is an outcome.
-/
namespace Verif.Minimizer

/-- The three points. -/
structure Tri where
  a : ℝ
  m : ℝ
  b : ℝ

/-- What one pass of the loop does. -/
inductive Outcome
  | handover (t : Tri)      -- break, line 58
  | next (t : Tri)          -- another pass
  | giveUp (t : Tri)        -- return without minimising, lines 77, 89
  | throws                  -- runtime_error, line 93

/-- `x < y` for doubles that may be NaN. -/
noncomputable def flt : Option ℝ → Option ℝ → Bool
  | some x, some y => decide (x < y)
  | _, _ => false

/-- `std::abs(x - y) < 1e-10`. -/
noncomputable def fclose : Option ℝ → Option ℝ → Bool
  | some x, some y => decide (|x - y| < 1 / 10 ^ 10)
  | _, _ => false

/-- One pass of the loop, minimizer.hpp:51-95. -/
noncomputable def mstep (cost : ℝ → Option ℝ) (t : Tri) : Outcome :=
  let ca := cost t.a
  let cb := cost t.b
  let cm := cost t.m
  if flt cm ca && flt cm cb then .handover t
  else if flt ca cb then .next ⟨t.a / 2, t.a, t.m⟩
  else if flt cb ca then .next ⟨t.m, t.b, t.b * 1.5⟩
  else if fclose ca cm then
    let temp := (t.a + t.m) / 2
    if flt (cost temp) ca then .next ⟨t.a, temp, t.m⟩ else .giveUp t
  else if fclose cb cm then
    let temp := (t.m + t.b) / 2
    if flt (cost temp) cb then .next ⟨t.m, temp, t.b⟩ else .giveUp t
  else .throws

/-- The loop observed for `fuel` passes: `none` if it is still running. -/
noncomputable def mloop (cost : ℝ → Option ℝ) : ℕ → Tri → Option Outcome
  | 0, _ => none
  | k + 1, t =>
    match mstep cost t with
    | .next t' => mloop cost k t'
    | o => some o

/-- The start values used by the callers (data_buffer.hpp:586-588 and the analogous places): half, once and
twice the present scale. -/
noncomputable def start (s : ℝ) : Tri := ⟨s / 2, s, s * 2⟩

end Verif.Minimizer
