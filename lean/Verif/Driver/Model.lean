import Verif.FileName.Model
import Verif.FlowGrid.Model
import Verif.Parquet.Model

/-
The programs behind the command line: `source/main.cpp`, the preparation of a flow by the parquet solver
(`source/mfRG_flow/flow.c++:47-60`), `run_parquet` (`source/perturbation_theory_and_parquet/parquet_solver.c++:99-120`),
`check_input` and `get_cpu_hours` (`source/utilities/util.c++`).

Modelled: which calculation is started for which arguments, which files it reads and writes, and how the state from which
it starts depends on them.  The states and the physics (initial state, second-order state, right-hand side of the
parquet equations) are parameters; the solver is `Verif.Parquet`.  A file is what `Verif.Parquet` knows of it: the flag
of convergence, the last layer, and the layers.  Printing is left out, `mkdir` is assumed to succeed.
-/
namespace Verif.Driver

open Verif.FileName Verif.Parquet

/-- The files, by path. -/
abbrev Disk (S : Type) := Str → Option (File S)

/-- The disk after a file has been replaced. -/
def Disk.put {S : Type} (d : Disk S) (p : Str) (f : File S) : Disk S := fun q => if q = p then some f else d q

/-- The file after these layers have been written in this order, the first with `write_state_to_hdf` (a new file), the
others with `add_state_to_hdf`: the flag is set by any write of a converged state (hdf5_routines.hpp:614-823, see C53), the
last layer is that of the last write. -/
def fileOf {S : Type} (l : List (Saved S)) : File S where
  converged := l.any (·.converged)
  last := match l.getLast? with
    | none => -1
    | some s => s.layer
  read i := (l.reverse.find? (fun s => decide ((s.layer : ℤ) = i))).map (·.state)

/-- What the calculations need from the rest of the program, for an executable, a configuration and a value of the flow
parameter. -/
structure Physics (S : Type) where
  /-- `state.initialize(); sopt_state(state);` -/
  prep : Build → Config → ℚ → S
  /-- the parquet equations -/
  prob : Build → Config → ℚ → Problem S

/-- The file in which the parquet solution at the beginning of a flow is kept, flow.c++:55; `data_dir` is
`generate_data_directory(job)`, main.cpp:61-69. -/
def initPath (b : Build) (c : Config) : Str :=
  directory b (job b c) ++ "parquetInit4_final_n1=".toList ++ showInt b.nBOS ++ "_n2=".toList ++ showInt b.nBOS2 ++
    "_n3=".toList ++ showInt b.nBOS3 ++ ".h5".toList

/-- The state from which a new flow starts, flow.c++:47-57 (without `PT2_FLOW`): the second-order state is improved by the
parquet solver, with accuracy `1e-6`, at most ten iterations, without overwriting old results. -/
noncomputable def prepare {S : Type} (Ph : Physics S) (b : Build) (c : Config) (d : Disk S) : Disk S × Res S :=
  match parquetSolver (Ph.prob b c b.lambdaIni) (d (initPath b c)) (Ph.prep b c b.lambdaIni) (1 / 10 ^ 6) 10 false 1
      false with
  | .error e => (d, .error e)
  | .ok (.loaded s _) => (d, .ok s)
  | .ok (.ran _ r) => (d.put (initPath b c) (fileOf r.1.saved), .ok r.1.stateIn)

/-- `parquet_filename_pre`, parquet_solver.c++:108-110. -/
def scanName (b : Build) (c : Config) (version : Int) (Lam : ℚ) : Str :=
  directory b (job b c) ++ ("parquetInit4_U_over_Delta=".toList ++
    (showDouble (c.U / ((c.Gamma + Lam) * (1 / 2))) ++ ("_T=".toList ++ (showDouble c.T ++
    ("_eVg=".toList ++ (showDouble (c.epsilon + c.U * (1 / 2)) ++ ("_n1=".toList ++ (showInt b.nBOS ++
    ("_n2=".toList ++ (showInt b.nBOS2 ++ ("_n3=".toList ++ (showInt b.nBOS3 ++ ("_version".toList ++
    showInt version)))))))))))))

/-- `parquet_filename_all`, line 111. -/
def scanAll (b : Build) (c : Config) (version : Int) (Lam : ℚ) : Str := scanName b c version Lam ++ ".h5".toList

/-- `parquet_filename_fin`, line 112. -/
def scanFin (b : Build) (c : Config) (version : Int) (Lam : ℚ) : Str := scanName b c version Lam ++ "_final.h5".toList

/-- One pass of the loop of `run_parquet`, lines 99-120.  The value returned by the solver is not used (line 114); the
final state is written to its own file, not marked as converged (line 116, `is_converged` is `false` by default). -/
noncomputable def scanStep {S : Type} (Ph : Physics S) (b : Build) (c : Config) (version : Int) (overwrite : Bool)
    (Lam : ℚ) (d : Disk S) : Disk S × Option Fail :=
  match parquetSolver (Ph.prob b c Lam) (d (scanAll b c version Lam)) (Ph.prep b c Lam) (1 / 10 ^ 6) 100 overwrite 1
      false with
  | .error e => (d, some e)
  | .ok (.loaded s _) => (d.put (scanFin b c version Lam) (fileOf [⟨0, s, false⟩]), none)
  | .ok (.ran _ r) =>
    ((d.put (scanAll b c version Lam) (fileOf r.1.saved)).put (scanFin b c version Lam)
      (fileOf [⟨0, r.1.stateIn, false⟩]), none)

/-- The loop over the values of the flow parameter, line 102; an exception ends the program. -/
noncomputable def scan {S : Type} (Ph : Physics S) (b : Build) (c : Config) (version : Int) (overwrite : Bool) :
    List ℚ → Disk S → Disk S × Option Fail
  | [], d => (d, none)
  | Lam :: Lams, d =>
    match scanStep Ph b c version overwrite Lam d with
    | (d', some e) => (d', some e)
    | (d', none) => scan Ph b c version overwrite Lams d'

/-- `run_parquet`, lines 99-120, for `REG == 2`. -/
noncomputable def runParquet {S : Type} (Ph : Physics S) (b : Build) (c : Config) (us : List ℚ) (version : Int)
    (overwrite : Bool) (d : Disk S) : Disk S × Option Fail :=
  scan Ph b c version overwrite (FlowGrid.checkpoints c.U c.Gamma b.lambdaIni us) d

/-! The command line. -/

/-- The digits at the beginning of a string. -/
def digits : Str → List Nat
  | [] => []
  | ch :: l => if ch.isDigit then (ch.toNat - '0'.toNat) :: digits l else []

/-- The number with these digits. -/
def value (l : List Nat) : Nat := l.foldl (fun a k => 10 * a + k) 0

/-- White space, `isspace`. -/
def blank (ch : Char) : Bool := [' ', '\t', '\n', '\r', '\x0b', '\x0c'].contains ch

/-- A sign at the beginning. -/
def sign : Str → Bool × Str
  | '-' :: u => (true, u)
  | '+' :: u => (false, u)
  | u => (false, u)

/-- `atoi`: leading white space, a sign, digits; what follows is ignored, and without digits the result is zero.  A
value outside of the range of `int` is undefined behaviour. -/
def atoi (s : Str) : Res Int :=
  let r := sign (s.dropWhile blank)
  let z : Int := if r.1 then -(value (digits r.2) : Int) else value (digits r.2)
  if -(2 : Int) ^ 31 ≤ z ∧ z < 2 ^ 31 then .ok z else .error .undefined

/-- Further constants of the executable: `ZERO_TEMP`, `NDEBUG`, `EQUILIBRIUM`. -/
structure Flags where
  zeroTemp : Bool
  ndebug : Bool
  equilibrium : Bool

/-- The assertions of `check_input`, util.c++:115-152 that depend on the configuration. -/
def checkInput (g : Flags) (b : Build) (c : Config) : Res Unit :=
  if g.ndebug then .ok ()
  else if (b.maxDiag < 2 → c.nloops < 2) ∧ (g.zeroTemp = true → c.T < 1 / 10 ^ 10) ∧
      (b.phSymm = true → |c.epsilon + c.U * (1 / 2)| < 1 / 10 ^ 10) ∧ (g.equilibrium = true → |b.glbV| < 1 / 10 ^ 10) then
    .ok ()
  else .error .assertion

/-- The configuration set up by `main`, main.cpp:45-56.  `M_PI` is left as an argument. -/
def mainConfig (g : Flags) (b : Build) (pi : ℚ) (nloops : Int) (T : ℚ) : Config where
  nloops := nloops
  nODE := 1
  U := 1
  T := if g.zeroTemp then 0 else T
  Gamma := if b.REG = 5 then 4 / pi else 2 / 10
  epsilon := (if b.phSymm then 0 else 5 / 10) - 1 * (5 / 10)
  epsODEabs := 1 / 10 ^ 8
  epsODErel := 1 / 10 ^ 6

/-- The calculations of `main`. -/
inductive Task
  | flow
  | parquet
  | pt2
  deriving DecidableEq

/-- The three branches, main.cpp:71-121. -/
def tasks (nloops : Int) : List Task :=
  (if nloops > 0 then [Task.flow] else []) ++ (if nloops = 0 then [Task.parquet] else []) ++
    (if nloops = -2 then [Task.pt2] else [])

/-- `main` up to the choice of the calculation, main.cpp:34-71.  `argv[argc]` is the null pointer and nothing lies behind
it, so that reading a missing argument is undefined behaviour; `atof` is an argument. -/
def main (g : Flags) (b : Build) (pi : ℚ) (atof : Str → ℚ) (args : List Str) : Res (Config × Int × List Task) :=
  match args with
  | a :: n :: t :: _ =>
    match atoi a with
    | .error e => .error e
    | .ok nloops => match atoi n with
      | .error e => .error e
      | .ok nodes =>
        let c := mainConfig g b pi nloops (atof t)
        match checkInput g b c with
        | .error e => .error e
        | .ok _ => .ok (c, nodes, tasks nloops)
  | _ => .error .undefined

/-- `omp_get_num_threads()`: the size of the team that executes the call, which is one outside of parallel regions. -/
def numThreads (inParallel : Bool) (team : Nat) : Nat := if inParallel then team else 1

/-- The number printed by `get_cpu_hours`, util.c++:48-61, which is called outside of parallel regions (main.cpp:122,
flow.c++:96, parquet_solver.c++:118); `team` is the number of threads of the parallel regions. -/
def cpuHours (elapsed : ℚ) (nodes team : Nat) : ℚ := elapsed / 3600 * nodes * numThreads false team

end Verif.Driver
