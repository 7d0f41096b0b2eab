import Verif.Outcome
import Mathlib.Data.List.Basic

/-
Model of the result files, /repo/source/utilities/hdf5_routines.{hpp,c++}, for the default configuration
(`MAX_DIAG_CLASS = 3`, `DEBUG_SYMMETRIES = 1`, `GRID = 0`, i.e. `FrequencyGrid<eliasGrid>`).

A file holds data sets (two-dimensional here: one row per Lambda layer; a multi-dimensional container is
stored flattened, its shape is not modelled), groups and attributes.  A call of the C++ routine is a list of
elementary operations on the file, in program order; a crash during the call leaves the file in the state
after some prefix of that list (every completed operation is taken to have reached the disk: the buffering of
the HDF5 library is not modelled).

The HDF5 library itself is trusted to behave as follows: creating an object whose name exists throws, opening
an object that does not exist throws, unwritten rows hold the fill value.
-/
namespace Verif.Hdf5

/-- The three channels. -/
inductive Ch | a | p | t
  deriving DecidableEq, Repr

/-- Frequency grids stored in a file, hpp:65-89. -/
inductive GridName
  | ffreqs | bfreqs (c : Ch) | bfreqs2 (c : Ch) | bfreqs2b (c : Ch) | bfreqs3 (c : Ch)
  | ffreqs2 (c : Ch) | ffreqs2b (c : Ch) | ffreqs3 (c : Ch) | ffreqs32 (c : Ch)
  deriving DecidableEq, Repr

/-- Parameters stored for each grid, `write_freqparams_to_hdf_LambdaLayer`, hpp:524-541. -/
inductive ParamName
  | type | diagClass | purelyPositive | numberOfGridpoints | wUpper | wLower | deltaFactor | uFactor | wScale
  deriving DecidableEq, Repr

/-- Data sets of a file, hpp:38-64 and 523-541. -/
inductive Path
  | lambdas | selflist | hartree | irred
  | K1 (c : Ch) | K2 (c : Ch) | K2b (c : Ch) | K3 (c : Ch)
  /-- list of the frequencies of a grid -/
  | freqs (g : GridName)
  /-- parameter of a grid, in the group `freq_params/g` -/
  | param (g : GridName) (p : ParamName)
  deriving DecidableEq, Repr

/-- Groups of a file: `parameters`, `freq_params` and one subgroup for each grid. -/
inductive Grp | parameters | freqParams | grid (g : GridName)
  deriving DecidableEq, Repr

/-- Attributes of the group `parameters`, hpp:683-703. -/
inductive AttrName
  | REG | nODE | Gamma | maxDiagClass | nLoops | T | mu | U | epsilon | V | GRID | isConverged | lastLambdaIt
  deriving DecidableEq, Repr

/-- Value of an attribute with its stored type. -/
inductive Attr (V : Type)
  | int (z : Int) | bool (b : Bool) | dbl (x : V)
  deriving DecidableEq, Repr

/-- A data set: extent (number of layers × length of a row) and contents. -/
structure Dataset (V : Type) where
  layers : Nat
  width : Nat
  row : Nat → List V

/-- A file. -/
structure File (V : Type) where
  ds : Path → Option (Dataset V)
  grp : Grp → Bool
  attr : AttrName → Option (Attr V)

/-- A freshly created file (`H5F_ACC_TRUNC`). -/
def File.empty {V : Type} : File V := ⟨fun _ => none, fun _ => false, fun _ => none⟩

/-- Conversion of an `int` to `hsize_t` (unsigned, 64 bit). -/
def u64 (z : Int) : Nat := (z % 2 ^ 64).toNat

/-- Elementary operations on a file. -/
inductive Op (V : Type)
  /-- `assert(Lambda_it < numberLambda_layers)`, hpp:195 -/
  | checkLayer (it n : Nat)
  /-- `createDataSet` with the given extent, hpp:226 -/
  | mkDs (p : Path) (layers width : Nat)
  /-- `openDataSet`, hpp:227 -/
  | needDs (p : Path)
  /-- write of one row, hpp:230 -/
  | putRow (p : Path) (it : Nat) (data : List V)
  | mkGrp (g : Grp)
  | needGrp (g : Grp)
  | mkAttr (a : AttrName)
  | needAttr (a : AttrName)
  | putAttr (a : AttrName) (v : Attr V)

/-- Change one row of a data set. -/
def Dataset.setRow {V : Type} (d : Dataset V) (it : Nat) (r : List V) : Dataset V :=
  { d with row := fun j => if j = it then r else d.row j }

/-- Effect of one operation; `fill` is the fill value.  Extents of `2^63` or more rows (a negative number of
layers) cannot be allocated.  A row of a length other than that of the data set does not match its extent. -/
def step {V : Type} (fill : V) (f : File V) : Op V → Res (File V)
  | .checkLayer it n => if it < n then .ok f else .error .assertion
  | .mkDs p n w =>
    if (f.ds p).isSome then .error .exception
    else if n ≥ 2 ^ 63 then .error .exception
    else .ok { f with ds := fun q => if q = p then some ⟨n, w, fun _ => List.replicate w fill⟩ else f.ds q }
  | .needDs p => if (f.ds p).isSome then .ok f else .error .exception
  | .putRow p it r =>
    match f.ds p with
    | none => .error .exception
    | some d => if it < d.layers ∧ r.length = d.width then
        .ok { f with ds := fun q => if q = p then some (d.setRow it r) else f.ds q }
      else .error .exception
  | .mkGrp g => if f.grp g then .error .exception
      else .ok { f with grp := fun h => if h = g then true else f.grp h }
  | .needGrp g => if f.grp g then .ok f else .error .exception
  | .mkAttr a => if (f.attr a).isSome then .error .exception
      else .ok { f with attr := fun b => if b = a then some (.int 0) else f.attr b }
  | .needAttr a => if (f.attr a).isSome then .ok f else .error .exception
  | .putAttr a v =>
    match f.attr a with
    | none => .error .exception
    | some _ => .ok { f with attr := fun b => if b = a then some v else f.attr b }

/-- Run operations until one fails; the file keeps the effect of those before it. -/
def run {V : Type} (fill : V) (f : File V) : List (Op V) → File V × Option Fail
  | [] => (f, none)
  | o :: os => match step fill f o with
    | .ok f' => run fill f' os
    | .error e => (f, some e)

/-- What is saved of a state: the flattened contents of every data set and the run parameters
(`REG`, `MAX_DIAG_CLASS`, `GRID` are compile-time constants). -/
structure Snapshot (V : Type) where
  content : Path → List V
  nODE : Int
  nLoops : Int
  gamma : V
  T : V
  mu : V
  U : V
  epsilon : V
  Vbias : V

/-- `a`, `p`, `t`. -/
def apt (f : Ch → Path) : List Path := [f .a, f .p, f .t]

/-- Data sets in the root group in the order of writing, hpp:637-681. -/
def mainPaths : List Path :=
  [.lambdas, .selflist, .hartree, .irred] ++ apt .K1 ++ [.freqs .ffreqs] ++ apt (.freqs ∘ .bfreqs) ++
  apt .K2 ++ apt (.freqs ∘ .bfreqs2) ++ apt (.freqs ∘ .ffreqs2) ++
  apt .K2b ++ apt (.freqs ∘ .bfreqs2b) ++ apt (.freqs ∘ .ffreqs2b) ++
  apt .K3 ++ apt (.freqs ∘ .bfreqs3) ++ apt (.freqs ∘ .ffreqs3) ++ apt (.freqs ∘ .ffreqs32)

/-- `a`, `p`, `t` for grids. -/
def aptG (f : Ch → GridName) : List GridName := [f .a, f .p, f .t]

/-- Groups of grid parameters in the order of creation, hpp:734-759. -/
def gridNames : List GridName :=
  [.ffreqs] ++ aptG .bfreqs ++ aptG .bfreqs2 ++ aptG .bfreqs2b ++ aptG .bfreqs3 ++ aptG .ffreqs2 ++
  aptG .ffreqs2b ++ aptG .ffreqs3 ++ aptG .ffreqs32

/-- Grids in the order in which their parameters are written, hpp:790-819. -/
def gridWriteOrder : List GridName :=
  [.ffreqs] ++ aptG .bfreqs ++ aptG .bfreqs2 ++ aptG .ffreqs2 ++ aptG .bfreqs2b ++ aptG .ffreqs2b ++
  aptG .bfreqs3 ++ aptG .ffreqs3 ++ aptG .ffreqs32

/-- Parameters of one grid in the order of writing, hpp:524-541. -/
def paramNames : List ParamName :=
  [.type, .diagClass, .purelyPositive, .numberOfGridpoints, .wUpper, .wLower, .deltaFactor, .uFactor, .wScale]

/-- All grid parameters in the order of writing. -/
def paramPaths : List Path := gridWriteOrder.flatMap (fun g => paramNames.map (.param g))

/-- `write_to_hdf_LambdaLayer`, hpp:458-468 and 193-236. -/
def layerOps {V : Type} (s : Snapshot V) (it n : Nat) (dsExists : Bool) (p : Path) : List (Op V) :=
  [.checkLayer it n] ++
  (if dsExists then [.needDs p] else [.mkDs p n (s.content p).length]) ++
  [.putRow p it (s.content p)]

/-- `write_to_hdf` for a scalar (attribute), hpp:360-398. -/
def attrOps {V : Type} (dsExists : Bool) (a : AttrName) (v : Attr V) : List (Op V) :=
  [if dsExists then .needAttr a else .mkAttr a, .putAttr a v]

/-- Constants of the executable that are recorded. -/
structure Build where
  REG : Int
  maxDiagClass : Int
  GRID : Int

/-- Parameters written once, when the file is new, hpp:683-696. -/
def paramAttrs {V : Type} (B : Build) (s : Snapshot V) (conv : Bool) : List (AttrName × Attr V) :=
  [(.REG, .int B.REG), (.nODE, .int s.nODE), (.Gamma, .dbl s.gamma), (.maxDiagClass, .int B.maxDiagClass),
   (.nLoops, .int s.nLoops), (.T, .dbl s.T), (.mu, .dbl s.mu), (.U, .dbl s.U), (.epsilon, .dbl s.epsilon),
   (.V, .dbl s.Vbias), (.GRID, .int B.GRID), (.isConverged, .bool conv)]

/-- First part: state data, hpp:637-681. -/
def dataOps {V : Type} (s : Snapshot V) (it n : Nat) (ex : Bool) : List (Op V) :=
  mainPaths.flatMap (layerOps s it n ex)

/-- Documentation of the parameters in a new file, hpp:682-697. -/
def newParamOps {V : Type} (B : Build) (s : Snapshot V) (conv ex : Bool) : List (Op V) :=
  if ex then [] else .mkGrp .parameters :: (paramAttrs B s conv).flatMap (fun q => attrOps false q.1 q.2)

/-- Last layer and convergence flag, hpp:698-704. -/
def statusOps {V : Type} (it : Nat) (conv ex : Bool) : List (Op V) :=
  .needGrp .parameters :: attrOps ex .lastLambdaIt (.int it) ++
  (if conv then attrOps ex .isConverged (.bool conv) else [])

/-- Groups for the grid parameters, hpp:732-787. -/
def groupOps {V : Type} (keep : Bool) : List (Op V) :=
  if keep then .needGrp .freqParams :: gridNames.map (fun g => .needGrp (.grid g))
  else .mkGrp .freqParams :: gridNames.map (fun g => .mkGrp (.grid g))

/-- Grid parameters, hpp:789-819. -/
def gridOps {V : Type} (s : Snapshot V) (it n : Nat) (ex : Bool) : List (Op V) :=
  paramPaths.flatMap (layerOps s it n ex)

/-- The operations of `write_state_to_hdf_LambdaLayer` after opening the file, hpp:636-822; `keep` is
`keep_existing_file`, `ex` is `is_dataset_existent`. -/
def writeOps {V : Type} (B : Build) (s : Snapshot V) (it n : Nat) (keep ex conv : Bool) : List (Op V) :=
  dataOps s it n ex ++ newParamOps B s conv ex ++ statusOps it conv ex ++ groupOps keep ++ gridOps s it n ex

/-- The file after opening, hpp:621-634, and `is_dataset_existent`: mode `"w"` truncates, mode `"rw"` opens an
existing file and creates a missing one. -/
def openFor {V : Type} (disk : Option (File V)) (keep : Bool) : File V × Bool :=
  if keep then match disk with
    | some f => (f, true)
    | none => (.empty, false)
  else (.empty, false)

/-- `write_state_to_hdf_LambdaLayer`, hpp:613-823, with `int` arguments. -/
def writeLayer {V : Type} (fill : V) (B : Build) (disk : Option (File V)) (s : Snapshot V) (it n : Int)
    (keep conv : Bool) : File V × Option Fail :=
  let o := openFor disk keep
  run fill o.1 (writeOps B s (u64 it) (u64 n) keep o.2 conv)

/-- The calls offered to users (on the process that writes). -/
inductive Call (V : Type)
  /-- `write_state_to_hdf(FILE_NAME, _, Lambda_size, state, _, is_converged)` -/
  | create (n : Int) (s : Snapshot V) (conv : Bool)
  /-- `add_state_to_hdf(FILE_NAME, Lambda_it, state, is_converged)` -/
  | add (it : Int) (s : Snapshot V) (conv : Bool)

/-- `write_state_to_hdf`, hpp:838-851. -/
def writeState {V : Type} (fill : V) (B : Build) (disk : Option (File V)) (n : Int) (s : Snapshot V)
    (conv : Bool) : Option (File V) × Option Fail :=
  let r := writeLayer fill B disk s 0 n false conv
  (some r.1, r.2)

/-- `add_state_to_hdf`, hpp:865-888: the number of layers is read from the file; a layer outside the range
only prints a message. -/
def addState {V : Type} (fill : V) (B : Build) (disk : Option (File V)) (it : Int) (s : Snapshot V)
    (conv : Bool) : Option (File V) × Option Fail :=
  match disk with
  | none => (none, some .exception)
  | some f => match f.ds .lambdas with
    | none => (some f, some .exception)
    | some d =>
      let size := d.layers * d.width
      if u64 it < size then
        let r := writeLayer fill B (some f) s it (size : Int) true conv
        (some r.1, r.2)
      else (some f, none)

/-- One call. -/
def call {V : Type} (fill : V) (B : Build) (disk : Option (File V)) : Call V → Option (File V) × Option Fail
  | .create n s conv => writeState fill B disk n s conv
  | .add it s conv => addState fill B disk it s conv

/-- A sequence of calls; a call that fails ends the program. -/
def history {V : Type} (fill : V) (B : Build) (disk : Option (File V)) :
    List (Call V) → Option (File V) × Option Fail
  | [] => (disk, none)
  | c :: cs => match call fill B disk c with
    | (d, none) => history fill B d cs
    | (d, some e) => (d, some e)

/-- The disk if the program is killed after `k` elementary operations of a call. -/
def crash {V : Type} (fill : V) (B : Build) (disk : Option (File V)) (c : Call V) (k : Nat) : Option (File V) :=
  match c with
  | .create n s conv => some (run fill .empty ((writeOps B s 0 (u64 n) false false conv).take k)).1
  | .add it s conv => match disk with
    | none => none
    | some f => match f.ds .lambdas with
      | none => some f
      | some d =>
        if u64 it < d.layers * d.width then
          some (run fill f ((writeOps B s (u64 it) (u64 (d.layers * d.width : Nat)) true true conv).take k)).1
        else some f

/-- `read_from_hdf_LambdaLayer`, hpp:283-345 (the rank is right by construction); the layer is an `int`
compared with an `hsize_t`. -/
def readRow {V : Type} (f : File V) (p : Path) (it : Int) : Res (List V) :=
  match f.ds p with
  | none => .error .exception
  | some d => if u64 it < d.layers then .ok (d.row (u64 it)) else .error .assertion

/-- Data sets read by `read_state_from_hdf`, c++:61-91 (the lists of frequencies are not read back). -/
def readMain : List Path :=
  [.lambdas, .selflist, .hartree, .irred] ++ apt .K1 ++ apt .K2 ++ apt .K2b ++ apt .K3

/-- `openGroup`. -/
def needGroup {V : Type} (f : File V) (g : Grp) : Res Unit := if f.grp g then .ok () else .error .exception

/-- `openAttribute` and `read`. -/
def readAttr {V : Type} (f : File V) (a : AttrName) : Res (Attr V) :=
  match f.attr a with
  | none => .error .exception
  | some v => .ok v

/-- `read_state_from_hdf`, c++:61-191: the rows of the data sets, then the grid parameters.  The comparison of
recorded with compiled parameters only prints; what the configuration is restored to is modelled separately
(`readConfig`). -/
def readState {V : Type} (f : File V) (it : Int) : Res (List (Path × List V)) := do
  let main ← readMain.mapM (fun p => do let r ← readRow f p it; pure (p, r))
  let _ ← needGroup f .freqParams
  let _ ← gridNames.mapM (fun g => needGroup f (.grid g))
  let params ← paramPaths.mapM (fun p => do let r ← readRow f p it; pure (p, r))
  let _ ← needGroup f .parameters
  let _ ← [AttrName.REG, .maxDiagClass, .mu, .V, .GRID].mapM (readAttr f)
  pure (main ++ params)

/-- `check_convergence_hdf`, c++:194-213: convergence flag and last layer.  A missing file and a missing group
throw `H5::FileIException`, which is caught; a missing attribute throws `H5::AttributeIException`, which is
not. -/
def checkConvergence {V : Type} (disk : Option (File V)) : Res (Bool × Int) :=
  match disk with
  | none => .ok (false, -1)
  | some f =>
    if f.grp .parameters then
      match f.attr .isConverged with
      | none => .error .exception
      | some c => match f.attr .lastLambdaIt with
        | none => .error .exception
        | some l => match c, l with
          | .bool b, .int z => .ok (b, z)
          | _, _ => .error .undefined
    else .ok (false, -1)

/-- Variable into which an attribute is read: `attr.read(attr.getDataType(), &result)` (hpp:482-486) copies
the bytes of the *stored* type.  An `int` stored in the file and read into an uninitialised `double` leaves
half of it indeterminate (`none`). -/
def readAsInt {V : Type} (f : File V) (a : AttrName) : Res (Option Int) :=
  match f.attr a with
  | none => .error .exception
  | some (.int z) => .ok (some z)
  | some _ => .error .undefined          -- more bytes than the variable has

/-- See `readAsInt`. -/
def readAsDouble {V : Type} (f : File V) (a : AttrName) : Res (Option V) :=
  match f.attr a with
  | none => .error .exception
  | some (.dbl x) => .ok (some x)
  | some _ => .ok none

/-- Configuration restored from a file; `none` is an indeterminate value. -/
structure Config (V : Type) where
  nLoops : Option Int
  U : Option V
  gamma : Option V
  T : Option V
  epsilon : Option V
  nODE : Option V
  deriving DecidableEq

/-- `read_config_from_hdf`, c++:392-421: `nODE_loaded` is a `double` (line 397). -/
def readConfig {V : Type} (f : File V) : Res (Config V) := do
  let _ ← needGroup f .parameters
  let _ ← readAsInt f .REG
  let nODE ← readAsDouble f .nODE
  let gamma ← readAsDouble f .Gamma
  let _ ← readAsInt f .maxDiagClass
  let nLoops ← readAsInt f .nLoops
  let T ← readAsDouble f .T
  let _ ← readAsDouble f .mu
  let U ← readAsDouble f .U
  let epsilon ← readAsDouble f .epsilon
  let _ ← readAsDouble f .V
  pure ⟨nLoops, U, gamma, T, epsilon, nODE⟩

end Verif.Hdf5
