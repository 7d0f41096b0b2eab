import Verif.Mpi.Model
import Verif.Index.Model
import Verif.Keldysh.Model

/-
From the integrals to the data of the result vertex: `BubbleFunctionCalculator`,
/repo/source/bubble/bubble_function.hpp:129-171 (dimensions), 251-305 (distribution, `Verif.Mpi`), 307-361
(external indices), 430-521 (storing the vectorised results).
The integrals themselves are parameters. `int` and `size_t` are `ℤ` and `ℕ`.
-/
namespace Verif.Layout
open Verif

/-- Diagrammatic classes (data_structures.hpp:454). -/
inductive Cls where
  | k1 | k2 | k2b | k3
  deriving DecidableEq, Repr

/-- Which kind of calculation: real frequencies, or finite temperature and imaginary frequencies; both with
`VECTORIZED_INTEGRATION`. -/
inductive Mode where
  | keldysh | matsubara
  deriving DecidableEq, Repr

/-- Order of the dimensions of the stored classes, data_structures.hpp:463-507 (`my_defs::K1`, `K2`, `K2b`,
`K3`): spin, omega, [nu, [nup,]] keldysh, internal. -/
def shape (cls : Cls) (nSpin nw nv nvp nK nIn : Nat) : List Nat :=
  match cls with
  | .k1 => [nSpin, nw, nK, nIn]
  | .k2 => [nSpin, nw, nv, nK, nIn]
  | .k2b => [nSpin, nw, nvp, nK, nIn]
  | .k3 => [nSpin, nw, nv, nvp, nK, nIn]

/-- `vectorization_dimensions_K1`, `_K2`, `_K3`, bubble_function.hpp:131-146 (`K2b` uses those of `K2`). -/
def vecDims (mode : Mode) (cls : Cls) : List Nat :=
  match mode, cls with
  | .keldysh, .k1 => [2]
  | .keldysh, .k2 => [3]
  | .keldysh, .k2b => [3]
  | .keldysh, .k3 => [4]
  | .matsubara, .k1 => []
  | .matsubara, .k2 => [2]
  | .matsubara, .k2b => [2]
  | .matsubara, .k3 => [2, 3]

/-- The loops of bubble_function.hpp:151-165: the vectorised extents are multiplied into `n_vectorization` and
replaced by one. -/
def reduceDims (dims : List Nat) (vd : List Nat) : List Nat × Nat :=
  vd.foldl (fun s i => (s.1.set i 1, s.2 * s.1.getD i 0)) (dims, 1)

variable {α : Type}

/-- `value[p] = x`; outside the vector undefined. -/
def put (l : List α) (p : ℤ) (x : α) : Res (List α) :=
  if 0 ≤ p ∧ p < l.length then .ok (l.set p.toNat x) else .error .undefined

/-- A sequence of such assignments. -/
def puts (l : List α) (ws : List (ℤ × α)) : Res (List α) := ws.foldlM (fun l w => put l w.1 w.2) l

/-- `for (int i = a; i <= b; i++)`. -/
def intRange (a b : ℤ) : List ℤ := (List.range (b + 1 - a).toNat).map fun (k : Nat) => a + (k : ℤ)

/-- bubble_function.hpp:512-521: entry `(i, j)` of the integrated matrix goes to position
`rotate_Keldysh_matrix<channel, true>(i * 4 + j)`. -/
def storeKeldysh [Zero α] (ch : Keldysh.Ch) (nvec : Nat) (M : Nat → Nat → α) : Res (List α) :=
  puts (List.replicate nvec 0) ((List.range 4).flatMap fun i => (List.range 4).map fun j =>
    ((Keldysh.rotate ch true (i * 4 + j) : Nat), M i j))

/-- The ranges of bubble_function.hpp:433-445: `(Nmin_v, Nmax_v, Nmin_vp, Nmax_vp, N_vp)`; `n` is `nFER2` or
`nFER3`. Integer division truncates. -/
def ranges (cls : Cls) (dbg : Bool) (n : ℤ) : ℤ × ℤ × ℤ × ℤ × ℤ :=
  let top := if dbg then Int.tdiv n 2 - 1 else -1
  match cls with
  | .k1 => (0, 0, 0, 0, 1)
  | .k2 => (Int.tdiv (-n) 2, top, 0, 0, 1)
  | .k2b => (0, 0, Int.tdiv (-n) 2, top, n)
  | .k3 => (Int.tdiv (-n) 2, top, Int.tdiv (-n) 2, Int.tdiv n 2 - 1, n)

/-- bubble_function.hpp:446-473: `S i j` is the sum for the fermionic frequencies `2 i + 1` and `2 j + 1`. -/
def storeMatsubara [Zero α] (cls : Cls) (dbg : Bool) (n : ℤ) (nvec : Nat) (S : ℤ → ℤ → α) : Res (List α) :=
  let r := ranges cls dbg n
  puts (List.replicate nvec 0) ((intRange r.1 r.2.1).flatMap fun i => (intRange r.2.2.1 r.2.2.2.1).map fun j =>
    ((-r.1 + i) * r.2.2.2.2 + (-r.2.2.1 + j), S i j))

/-- `get_value`, bubble_function.hpp:307-361: the external indices of task `t` are found with the reduced
dimensions; `need` is `trafo == 0`, otherwise the vector stays zero. -/
def getValue [Zero α] (dims : List Nat) (nvec : Nat) (need : List Nat → Bool) (store : List Nat → Res (List α))
    (t : Nat) : Res (List α) :=
  match Index.getMultIndex t dims with
  | none => .error .undefined
  | some idx => if need idx then store idx else .ok (List.replicate nvec 0)

/-- `calculate_bubble_function`, bubble_function.hpp:251-305: the data handed to `set_vec`. A task that fails is
undefined behaviour of the whole. -/
def run [Zero α] (mode : Mode) (cls : Cls) (dims : List Nat) (need : List Nat → Bool)
    (store : Nat → List Nat → Res (List α)) (ws nodes : Nat) (small : α → Bool)
    (sched : Nat → Nat → List (Nat × Nat)) : Res (List α) :=
  let red := reduceDims dims (vecDims mode cls)
  match Index.getFlatSize red.1 with
  | none => .error .undefined
  | some flat => Mpi.calculate ⟨ws, nodes, flat, red.2⟩
      (fun t => match getValue red.1 red.2 need (store red.2) t with
        | .ok l => l
        | .error _ => []) small sched

end Verif.Layout
