import Verif.Outcome
import Mathlib.Algebra.Order.Ring.Rat

/-
Statistics of the flow kept in the result file: `mfRG_stats`, source/mfRG_flow/right_hand_sides.hpp:133-158, and
their use in `postRKstep_stuff`, source/ODE_solvers/ODE_solvers.hpp:53-56.

Modelled: the group `mfRG_stats` of the file with its three data sets, as a sequence of elementary operations, so
that the program may be killed between any two of them.
-/
namespace Verif.Stats

/-- The data sets. -/
inductive Name
  | seIterations | time | rkAttempts
  deriving DecidableEq

/-- A data set: number of layers and the entry of each layer (`none`: the fill value). -/
structure DS where
  layers : Nat
  row : Nat → Option ℚ

/-- The part of the file that belongs to the statistics. -/
structure File where
  grp : Bool
  ds : Name → Option DS

/-- A file without statistics. -/
def File.empty : File := ⟨false, fun _ => none⟩

/-- `mfRG_stats`, lines 133-136. -/
structure Stats where
  seIterations : Int
  time : ℚ
  rkAttempts : Int

/-- Elementary operations. -/
inductive Op
  | openGrp | mkGrp
  | check (it n : Nat)
  | openDs (x : Name) | mkDs (x : Name) (n : Nat)
  | put (x : Name) (it : Nat) (v : ℚ)

/-- HDF5: opening what is missing and creating what exists throws. -/
def step (f : File) : Op → Res File
  | .openGrp => if f.grp then .ok f else .error .exception
  | .mkGrp => if f.grp then .error .exception else .ok ⟨true, f.ds⟩
  | .check it n => if it < n then .ok f else .error .assertion
  | .openDs x => if (f.ds x).isSome then .ok f else .error .exception
  | .mkDs x n => if (f.ds x).isSome then .error .exception
      else .ok ⟨f.grp, fun y => if y = x then some ⟨n, fun _ => none⟩ else f.ds y⟩
  | .put x it v => match f.ds x with
    | none => .error .exception
    | some d => if it < d.layers then
        .ok ⟨f.grp, fun y => if y = x then some ⟨d.layers, fun k => if k = it then some v else d.row k⟩
          else f.ds y⟩
      else .error .exception

/-- Operations one after the other, up to the first failure. -/
def run (f : File) : List Op → File × Option Fail
  | [] => (f, none)
  | o :: os => match step f o with
    | .ok f' => run f' os
    | .error e => (f, some e)

/-- `write_to_hdf_LambdaLayer` for a vector with one entry, utilities/hdf5_routines.hpp:193-236, 458-462. -/
def layerOps (x : Name) (v : ℚ) (it n : Nat) (ex : Bool) : List Op :=
  [.check it n, if ex then .openDs x else .mkDs x n, .put x it v]

/-- `mfRG_stats::write_to_hdf`, lines 136-157: whether the data sets exist is inferred from the number of the layer
(141); the data set `RK_attempts` receives `time` (153). -/
def writeOps (s : Stats) (it n : Nat) : List Op :=
  let ex := decide (it > 1)
  (if ex then .openGrp else .mkGrp) ::
    (layerOps .seIterations s.seIterations it n ex ++ layerOps .time s.time it n ex ++
      layerOps .rkAttempts s.time it n ex)

/-- `write_to_hdf`. -/
def write (f : File) (s : Stats) (it n : Nat) : File × Option Fail := run f (writeOps s it n)

/-- The writes of a flow whose solver starts with iteration number `it`: one after each step, for layer
`iteration + 1` (ODE_solvers.hpp:53); the counters are reset after each write (54-56), so `ss` lists what was
counted during each step. -/
def flowWrites (f : File) (it n : Nat) : List Stats → File × Option Fail
  | [] => (f, none)
  | s :: ss => match write f s (it + 1) n with
    | (g, none) => flowWrites g (it + 1) n ss
    | (g, some e) => (g, some e)

/-- Reading an entry. -/
def read (f : File) (x : Name) (k : Nat) : Option ℚ := match f.ds x with
  | none => none
  | some d => d.row k

end Verif.Stats
