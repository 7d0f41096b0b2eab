import Verif.Outcome
import Verif.Anderson.Model

/-
Model of `parquet_solver`, /repo/source/perturbation_theory_and_parquet/parquet_solver.hpp:502-646.
States are elements of an arbitrary type; the right-hand side of the parquet equations, the mixing of old and
new states and the relative deviations are arguments.  Deviations are doubles: real numbers or NaN
(`none`).  Printing, timing and the test-only writes are left out.
-/
namespace Verif.Parquet

/-- `x < y` for doubles that may be NaN. -/
noncomputable def flt : Option ℝ → Option ℝ → Bool
  | some x, some y => decide (x < y)
  | _, _ => false

/-- `std::max(x, y)`, i.e. `(x < y) ? y : x`. -/
noncomputable def fmax (x y : Option ℝ) : Option ℝ := if flt x y then y else x

/-- The pieces of the iteration that depend on the physics. -/
structure Problem (S : Type) where
  /-- `parquet_iteration`, lines 478-489 -/
  rhs : S → S
  /-- `anderson_update` of the history, or plain mixing, lines 594-605; the second argument is
  `mixing_adaptive` -/
  upd : List (S × S) → ℝ → S
  /-- relative deviation of the vertex between input and output, line 610 -/
  relV : S → S → Option ℝ
  /-- relative deviation of the self-energy, line 611 -/
  relS : S → S → Option ℝ

/-- A layer written by the solver: layer index, state, convergence flag. -/
structure Saved (S : Type) where
  layer : ℕ
  state : S
  converged : Bool

/-- Loop state, lines 509-513, 532, 554-560. -/
structure LoopState (S : Type) where
  stateIn : S
  hist : List (S × S)
  devs : List (Option ℝ)
  mix : ℝ
  iteration : ℕ
  saved : List (Saved S)

/-- `push_back` followed by `pop_front` if the deque is longer than `n`. -/
def pushBounded {α : Type} (n : ℕ) (l : List α) (x : α) : List α :=
  let l' := l ++ [x]
  if l'.length > n then l'.drop 1 else l'

/-- Adaptation of the mixing factor, lines 616-623 (`trigger_adaptation = 5`, `mixing_minimum = 0.01`). -/
noncomputable def adapt (iteration : ℕ) (mix : ℝ) (devs : List (Option ℝ)) : ℝ :=
  if iteration % 5 = 0 ∧ mix > 1 / 100 ∧ flt (devs.head?.getD none) (devs.getLast?.getD none) = true then
    max (6 / 10 * mix) (1 / 100)
  else mix

/-- `is_converged`, line 627. -/
noncomputable def isConverged (acc : ℝ) (dv ds : Option ℝ) : Bool :=
  !(flt (some acc) dv || flt (some acc) ds)

/-- One pass of the loop, lines 561-643; returns the new loop state and `is_converged`. -/
noncomputable def pass {S : Type} (P : Problem S) (acc : ℝ) (s : LoopState S) : LoopState S × Bool :=
  let out0 := P.rhs s.stateIn
  let hist := pushBounded 4 s.hist (out0, s.stateIn)
  let out := P.upd hist s.mix
  let dv := P.relV s.stateIn out
  let ds := P.relS s.stateIn out
  let devs := pushBounded 5 s.devs (fmax ds dv)
  let mix := adapt s.iteration s.mix devs
  let conv := isConverged acc dv ds
  ({ stateIn := out, hist := hist, devs := devs, mix := mix, iteration := s.iteration + 1,
     saved := s.saved ++ [⟨s.iteration % 5, out, conv⟩] }, conv)

/-- The loop, lines 557-645; the first argument is how many further passes `iteration < Nmax` admits after
the next one. -/
noncomputable def loop {S : Type} (P : Problem S) (acc : ℝ) : ℕ → LoopState S → LoopState S × Bool
  | 0, s => pass P acc s
  | k + 1, s =>
    let r := pass P acc s
    if r.2 then r else loop P acc k r.1

/-- Start of the loop: the input is saved in layer 0 (line 535). -/
noncomputable def loopStart {S : Type} (mix : ℝ) (s : S) : LoopState S :=
  { stateIn := s, hist := [], devs := [], mix := mix, iteration := 1, saved := [⟨0, s, false⟩] }

/-- The iteration proper from a given state. -/
noncomputable def solve {S : Type} (P : Problem S) (acc : ℝ) (Nmax : ℕ) (mix : ℝ) (s : S) : LoopState S × Bool :=
  loop P acc (Nmax - 1) (loopStart mix s)

/-- What is known about an existing result file: flag, last layer, readable layers. -/
structure File (S : Type) where
  converged : Bool
  last : ℤ
  read : ℤ → Option S

/-- How a call ends. -/
inductive Outcome (S : Type)
  | loaded (s : S) (ret : Bool)                    -- lines 521-525
  | ran (start : S) (r : LoopState S × Bool)

/-- `read_state_from_hdf`: a missing file or layer raises an exception. -/
def readLayer {S : Type} (file : Option (File S)) (it : ℤ) : Res S :=
  match file with
  | none => .error .exception
  | some f => match f.read it with
    | none => .error .exception
    | some s => .ok s

/-- `parquet_solver`, lines 502-646. -/
noncomputable def parquetSolver {S : Type} (P : Problem S) (file : Option (File S)) (stateIn : S) (acc : ℝ)
    (Nmax : ℕ) (overwrite : Bool) (mixing : ℝ) (useLast : Bool) : Res (Outcome S) :=
  if ¬ ((mixing ≥ 1 / 100 ∧ mixing ≤ 1 / 2) ∨ mixing = 1) then .error .assertion           -- line 506
  else if overwrite then .ok (.ran stateIn (solve P acc Nmax mixing stateIn))
  else
    -- check_convergence_hdf, hdf5_routines.c++:194-213
    let conv := match file with | none => false | some f => f.converged
    let it : ℤ := match file with | none => -1 | some f => f.last
    if conv || (useLast && decide (it ≠ 0)) then                                             -- line 521
      match readLayer file it with
      | .error e => .error e
      | .ok s => .ok (.loaded s false)                                                       -- return 0
    else if it ≥ 0 then
      match readLayer file it with
      | .error e => .error e
      | .ok s => .ok (.ran s (solve P acc Nmax mixing s))
    else .ok (.ran stateIn (solve P acc Nmax mixing stateIn))

/-- Plain mixing, line 604 (without acceleration; uses the fixed ratio, not the adapted one). -/
noncomputable def plainMixing {V : Type} [AddCommGroup V] [Module ℝ V] (ratio : ℝ) (hist : List (V × V)) (_ : ℝ) : V :=
  match hist.getLast? with
  | none => 0
  | some p => ratio • p.1 + (1 - ratio) • p.2

/-- Acceleration, lines 596-602; `gam` gives the least-squares solution for a history. -/
noncomputable def accelerated {V : Type} [AddCommGroup V] [Module ℝ V] (gam : List (V × V) → ℕ → ℝ)
    (hist : List (V × V)) (mix : ℝ) : V :=
  match Anderson.update hist mix (gam hist) with
  | .ok x => x
  | .error _ => 0

end Verif.Parquet
