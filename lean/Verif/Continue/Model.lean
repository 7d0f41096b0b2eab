import Verif.Hdf5.Model

/-
Starting or continuing a flow: `source/mfRG_flow/flow.c++`, the two overloads of `n_loop_flow`.

Modelled: which state the flow starts from, which iteration number it is given, and what happens to the
result file before and during the flow.  Not modelled here: the parquet solution that prepares a new run (the
prepared state is a parameter), the right-hand side and the choice of steps (the writes of the solver are a
parameter), `#ifdef ADAPTIVE_GRID` blocks (off), the extra file `…_final`.
-/
namespace Verif.Continue

open Verif.Hdf5

/-- How a call to `n_loop_flow` proceeds after it has dealt with the file. -/
inductive Began (V : Type)
  /-- the flow is integrated from these data, the solver starting with iteration number `it` -/
  | flows (it : Int) (data : List (Path × List V))
  /-- the flow is integrated from the prepared state -/
  | fresh (s : Snapshot V)
  /-- the data of a result are returned without any integration -/
  | returns (data : List (Path × List V))
  /-- `State<state_datatype>()` is returned -/
  | defaultState

/-- `n_loop_flow(outputFileName, frgConfig)`, flow.c++:3-72: a converged result is returned (11-15); an
unfinished one is continued from its last layer (16-24); otherwise the prepared state is written to a new
file (53-57).  `fresh` is the prepared state, `n` is `nODE_ + U_NRG.size() + 1`. -/
def startFlow {V : Type} (fill : V) (B : Build) (disk : Option (File V)) (n : Int) (fresh : Snapshot V) :
    Option (File V) × Res (Began V) :=
  match checkConvergence disk with
  | .error e => (disk, .error e)
  | .ok (true, l) =>
    (disk, match disk with
      | none => .error .exception
      | some f => (readState f l).map .returns)
  | .ok (false, l) =>
    if l ≥ 0 then
      (disk, match disk with
        | none => .error .exception
        | some f => (readState f l).map (.flows l))
    else
      match writeState fill B disk n fresh false with
      | (d, some e) => (d, .error e)
      | (d, none) => (d, .ok (.fresh fresh))

/-- `n_loop_flow(inputFileName, frgConfig, it_start)`, flow.c++:118-156: the layer is read, the file is
written anew with that state as initial state (line 122), and the flow starts with iteration number
`it_start`; if `it_start` is too large the exception is constructed but not thrown (153).  `rebuild` turns
the data that were read into the state that is written. -/
def continueFlow {V : Type} (fill : V) (B : Build) (rebuild : List (Path × List V) → Snapshot V)
    (disk : Option (File V)) (n it : Int) : Option (File V) × Res (Began V) :=
  if it < n then
    match disk with
    | none => (none, .error .exception)
    | some f => match readState f it with
      | .error e => (some f, .error e)
      | .ok data => match writeState fill B (some f) n (rebuild data) false with
        | (d, some e) => (d, .error e)
        | (d, none) => (d, .ok (.flows it data))
  else (disk, .ok .defaultState)

/-- What the solver does to the file: after each step it adds the layer `iteration + 1`
(`postRKstep_stuff`, ODE_solvers.hpp:31-40); `steps` lists the states and convergence flags. -/
def solverWrites {V : Type} (it : Int) : List (Snapshot V × Bool) → List (Call V)
  | [] => []
  | s :: ss => .add (it + 1) s.1 s.2 :: solverWrites (it + 1) ss

end Verif.Continue
