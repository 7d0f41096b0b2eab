import Verif.Outcome
import Mathlib.Algebra.Order.Round
import Mathlib.Data.Int.Log
import Mathlib.Data.Rat.Floor

/-
Export of lists of numbers to files, /repo/source/utilities/write_data2file.c++, its use by the check of the parquet
equations, and names of vertex classes and types, /repo/source/data_structures.c++. Numbers are rationals.
-/
namespace Verif.Export

/-- An HDF5 file: its one-dimensional data sets in the order of their creation. -/
abbrev File := List (String × List ℚ)

/-- Effects on the file, in the order in which they happen. -/
inductive Step where
  /-- the file is created, or emptied if it exists (`H5F_ACC_TRUNC`) -/
  | truncate
  /-- `createDataSet`: a data set of the given length, filled with zeros -/
  | create (key : String) (n : Nat)
  /-- `write` into the data set created last -/
  | fill (v : List ℚ)
  deriving DecidableEq

/-- The file after one effect; `none`: there is no such file. -/
def Step.apply : Step → Option File → Option File
  | .truncate, _ => some []
  | .create k n, f => f.map (· ++ [(k, List.replicate n 0)])
  | .fill v, f => f.map fun l => l.dropLast ++ (l.getLast?.map fun d => (d.1, v)).toList

/-- The loop over the vectors, write_data2file.c++:26-34: `keys[i]` outside the list of keys is undefined, a key that is there
already makes the library throw, and `&myvec[0]` of an empty vector is undefined. `i` is the index of the next vector. The
effects up to the end or the failure are returned. -/
def h5Loop (keys : List String) : Nat → List (List ℚ) → List Step × Option Fail
  | _, [] => ([], none)
  | i, v :: vs =>
    match keys[i]? with
    | none => ([], some .undefined)
    | some k =>
      if k ∈ keys.take i then ([], some .exception)
      else if v = [] then ([.create k v.length], some .undefined)
      else
        let r := h5Loop keys (i + 1) vs
        (.create k v.length :: .fill v :: r.1, r.2)

/-- `write_h5_rvecs`, write_data2file.c++:19-37: only the first MPI process does anything. -/
def writeH5 (rank : Nat) (keys : List String) (vecs : List (List ℚ)) : List Step × Option Fail :=
  if rank = 0 then
    let r := h5Loop keys 0 vecs
    (.truncate :: r.1, r.2)
  else ([], none)

/-- The file after the first `n` effects: what is found if the program is interrupted then (assuming that every effect reaches
the disk at once). -/
def after (n : Nat) (s : List Step) (f : Option File) : Option File := (s.take n).foldl (fun f s => s.apply f) f

/-- The file after all effects. -/
def run (s : List Step) (f : Option File) : Option File := s.foldl (fun f s => s.apply f) f

/-- The vectors `parquet_checks` has filled after iteration `i`, parquet_solver.c++:7-46: `norm k j` is the number stored in
vector `k` at position `j`; all have the length of the list of scales and start with zeros. -/
def filled (nL : Nat) (norms : List (Nat → ℚ)) (i : Nat) : List (List ℚ) :=
  norms.map fun f => (List.range nL).map fun j => if j ≤ i then f j else 0

/-- The effects of the first `m` iterations of `parquet_checks` on the file with the norms, parquet_solver.c++:12-66: in each
iteration the whole file is written again. The list of scales is the first vector. -/
def checks (keys : List String) (scales : List ℚ) (norms : List (Nat → ℚ)) : Nat → List Step
  | 0 => []
  | m + 1 => checks keys scales norms m ++ (writeH5 0 keys (scales :: filled scales.length norms m)).1

/-- A number as it is read back from the text that the default output format of a stream prints: six significant decimal
digits, to nearest, ties to even. -/
def sixDigits (x : ℚ) : ℚ :=
  if x = 0 then 0
  else
    let s : ℚ := (10 : ℚ) ^ (5 - Int.log 10 |x|)
    let y := x * s
    let n : Int := if y - ⌊y⌋ = 1 / 2 then (if 2 ∣ ⌊y⌋ then ⌊y⌋ else ⌊y⌋ + 1) else round y
    n / s

/-- A text file: lines of numbers. -/
abbrev Text := List (List ℚ)

/-- `write_dat_rvecs`, write_data2file.c++:4-13: one line for each vector. If the file cannot be opened all output is
discarded and nothing is reported. -/
def writeDat (rank : Nat) (canOpen : Bool) (vecs : List (List ℚ)) (f : Option Text) : Option Text :=
  if rank = 0 ∧ canOpen then some (vecs.map fun v => v.map sixDigits) else f

/-- `K_class`, data_structures.hpp:454. -/
inductive KClass where
  | selfenergy | k1 | k2 | k2b | k3 | k3sbe
  deriving DecidableEq

/-- The number of a class, data_structures.hpp:454. -/
def KClass.val : KClass → Int
  | .selfenergy => -1
  | .k1 => 0
  | .k2 => 1
  | .k2b => 2
  | .k3 => 3
  | .k3sbe => 4

/-- `operator<<`, data_structures.c++:8-14. -/
def KClass.print (k : KClass) : String :=
  if k = .k1 ∨ k = .k2 then "K" ++ toString (k.val + 1)
  else if k = .k3 then "K" ++ toString k.val
  else if k = .k2b then "K" ++ toString k.val ++ "'"
  else "selfenergy"

/-- `operator<<` for vertex types, data_structures.c++:16-23, as a function of the value of the enumeration. -/
def typeName (n : Int) : Res String :=
  if n = 0 then .ok "symmetric_full"
  else if n = 1 then .ok "symmetric_r_irred"
  else if n = 2 then .ok "non_symmetric_diffleft"
  else if n = 3 then .ok "non_symmetric_diffright"
  else .error .assertion

/-- `all_true`, template_utils.hpp:5-7: two lists of booleans are compared. -/
def allTrue (bs : List Bool) : Bool := (bs ++ [true]) == (true :: bs)

end Verif.Export
