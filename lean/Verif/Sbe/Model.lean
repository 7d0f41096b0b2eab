import Verif.Index.Model
import Verif.Keldysh.Model
import Mathlib.Algebra.Ring.Defs
import Mathlib.Algebra.BigOperators.Group.Finset.Basic

/-
Model of the composition of single-boson-exchange objects: `getMultIndexSkippingOneDimension`
(/repo/source/utilities/math_utils.hpp:209-236), `rvert::combine_SBE_to_K2`, `combine_SBE_to_K2b`,
`combine_SBE_to_K3_SBE` (/repo/source/correlation_functions/four_point/r_vertex.hpp:995-1386) and
`GeneralVertex::symmetry_expand_impl`, `construct_SBE_*`, `symmetry_expand`
(/repo/source/correlation_functions/four_point/vertex.hpp:464-824, 1077-1098).
-/
namespace Verif.Sbe

open Keldysh

/-! ### One dimension left out -/

/-- `getMultIndexSkippingOneDimension<rank, idim>`, math_utils.hpp:209-236. The first loop multiplies all extents but
the first and the skipped one; the second unpacks the entries before the skipped one, the third those after it. A
division by zero or an empty array is `none`. `Index.multLoop` is the unpacking loop shared with `getMultIndex`. -/
def skip (iflat : Nat) (dims : List Nat) (idim : Nat) : Option (List Nat) :=
  match dims with
  | [] => none
  | d :: ds =>
    if (d :: ds).length ≤ idim then none
    else
      let others := if idim = 0 then ds else ds.eraseIdx (idim - 1)
      let dimtemp := others.foldl (· * ·) 1
      if 0 ∈ others then none
      else if idim = 0 then some (0 :: Index.multLoop iflat dimtemp others)
      else
        let i0 := iflat / dimtemp
        let rest := Index.multLoop (iflat - i0 * dimtemp) dimtemp others
        some ((i0 :: rest).insertIdx idim 0)

/-! ### Buffers -/

variable {Q : Type}

/-- A buffer: values at flat positions, zero where nothing was written. -/
abbrev Mem (Q : Type) := Nat → Q

/-- A sequence of assignments. -/
def store (m : Mem Q) (ws : List (Nat × Q)) : Mem Q := ws.foldl (fun m w => fun p => if p = w.1 then w.2 else m p) m

/-- `{spin, omega, nu, keldysh, internal}` of the expanded K2, K2b: the spin component has been selected, one internal
index; `nK` is 16 on the Keldysh contour and 1 for imaginary frequencies. -/
def dims2 (nW nV nK : Nat) : List Nat := [1, nW, nV, nK, 1]

/-- `{spin, omega, nu, nup, keldysh, internal}` of the expanded K3. -/
def dims3 (nW nV nK : Nat) : List Nat := [1, nW, nV, nV, nK, 1]

/-- `{spin, omega, keldysh, internal}` of the expanded K1. -/
def dims1 (nW nK : Nat) : List Nat := [1, nW, nK, 1]

/-- The flat position of a multi-index; the callers below stay in range. -/
def pos (idx dims : List Nat) : Nat := (Index.getFlatIndex idx dims).getD 0

/-- The multi-index of a flat position. -/
def multi (iflat : Nat) (dims : List Nat) : List Nat := (Index.getMultIndex iflat dims).getD []

/-- `for (iflat < getFlatSize(dims)) { getMultIndex(idx, iflat, dims); ...; setvert(value, idx); }` -/
def fill [Zero Q] (dims : List Nat) (f : List Nat → Q) : Mem Q :=
  store (fun _ => 0) ((List.range ((Index.getFlatSize dims).getD 0)).map fun i =>
    (pos (multi i dims) dims, f (multi i dims)))

/-- `for (iflat < getFlatSize(dims) / dims[keldysh]) { getMultIndexSkippingOneDimension(idx, iflat, dims); ...;
setvert_vectorized(value, idx); }`: the `nK` components are written to consecutive positions. -/
def fillVec [Zero Q] (dims : List Nat) (idim nK : Nat) (f : List Nat → Nat → Q) : Mem Q :=
  store (fun _ => 0) ((List.range ((Index.getFlatSize dims).getD 0 / nK)).flatMap fun i =>
    let idx := (skip i dims idim).getD []
    (List.range nK).map fun k => (pos idx dims + k, f idx k))

/-- `unrotate_Keldysh_matrix<from>(rotate_Keldysh_matrix<to>(iK))`. -/
def relabel (src dst : Ch) (left : Bool) (iK : Nat) : Nat := unrotate src left (rotate dst left iK)

/-- A vector of `n * n` components resized to a matrix (column major). -/
def toMat (n : Nat) (v : Nat → Q) (r c : Nat) : Q := v (r + n * c)

/-- A matrix resized to a vector. -/
def toVec (n : Nat) (M : Nat → Nat → Q) (k : Nat) : Q := M (k % n) (k / n)

variable [CommRing Q]

/-- Product of `n × n` matrices. -/
def mul (n : Nat) (A B : Nat → Nat → Q) (r c : Nat) : Q := ∑ k ∈ Finset.range n, A r k * B k c

/-- `interpolate`: a weighted sum of the values at grid points, with weights that depend on the frequencies alone
(C39–C41). `pts` lists the leading indices of the grid points with their weights. -/
def read (m : Mem Q) (dims : List Nat) (pts : List (List Nat × Q)) (iK : Nat) : Q :=
  (pts.map fun p => p.2 * m (pos (p.1 ++ [iK, 0]) dims)).sum

/-- The interpolation weights: of the frequency `w` of the entry `iw` of the K2 grid on the K1 grid, and of the
entries of the K2 grid on themselves. -/
structure Grids (Q : Type) where
  nW1 : Nat
  nW : Nat
  nV : Nat
  w1 : Nat → List (Nat × Q)
  w2 : Nat → Nat → List (Nat × Nat × Q)

/-- Reading K1 at the frequency of entry `iw`. -/
def readK1 (g : Grids Q) (nK : Nat) (m : Mem Q) (iw iK : Nat) : Q :=
  read m (dims1 g.nW1 nK) ((g.w1 iw).map fun p => ([0, p.1], p.2)) iK

/-- Reading K2 or K2b at the entry `(iw, iv)`. -/
def readK2 (g : Grids Q) (nK : Nat) (m : Mem Q) (iw iv iK : Nat) : Q :=
  read m (dims2 g.nW g.nV nK) ((g.w2 iw iv).map fun p => ([0, p.1, p.2.1], p.2.2)) iK

/-- Reading K1 at an entry of its own grid (`w1` refers to the K2 grid): the weights are those of C40. -/
def atK1 (g : Grids Q) (nK : Nat) (m : Mem Q) (iw iK : Nat) : Q := m (pos [0, iw, iK, 0] (dims1 g.nW1 nK))

/-- `combine_SBE_to_K2<bubble, r, left>` (`b = false`), r_vertex.hpp:995-1125, and `combine_SBE_to_K2b` (`b = true`),
1128-1248. `lam` and `w` are the expanded buffers of the two vertices, `bare` the bare vertex of the second. -/
def combine2 (n : Nat) (g : Grids Q) (bubble r : Ch) (left b : Bool) (lam w : Mem Q) (bare : Nat → Q) : Mem Q :=
  let nK := n * n
  let d2 := dims2 g.nW g.nV nK
  let d1 := dims1 g.nW1 nK
  let lamR := fill d2 fun i => readK2 g nK lam (i.getD 1 0) (i.getD 2 0) (relabel bubble r left (i.getD 3 0))
  let wR := fill d1 fun i => atK1 g nK w (i.getD 1 0) (relabel bubble r left (i.getD 2 0))
  let new := fillVec d2 3 nK fun i =>
    let vw := toMat n fun k => readK1 g nK wR (i.getD 1 0) k + bare k
    let vl := toMat n fun k => readK2 g nK lamR (i.getD 1 0) (i.getD 2 0) k
    toVec n (if b then (if left then mul n vl vw else mul n vw vl) else (if left then mul n vw vl else mul n vl vw))
  fill d2 fun i => readK2 g nK new (i.getD 1 0) (i.getD 2 0) (relabel r bubble left (i.getD 3 0))

/-- `combine_SBE_to_K3_SBE<bubble, r, left>`, r_vertex.hpp:1255-1386: `k2` and the second-leg vertex `lamb` (K2b) are
read at `(w, v)` and `(w, v')`; `w3` are the weights of the K3 buffer at its own entries. -/
def combine3 (n : Nat) (g : Grids Q) (w3 : Nat → Nat → Nat → List (Nat × Nat × Nat × Q)) (bubble r : Ch) (left : Bool)
    (k2 lamb : Mem Q) : Mem Q :=
  let nK := n * n
  let d2 := dims2 g.nW g.nV nK
  let d3 := dims3 g.nW g.nV nK
  let k2R := fill d2 fun i => readK2 g nK k2 (i.getD 1 0) (i.getD 2 0) (relabel bubble r left (i.getD 3 0))
  let lamR := fill d2 fun i => readK2 g nK lamb (i.getD 1 0) (i.getD 2 0) (relabel bubble r left (i.getD 3 0))
  let new := fillVec d3 4 nK fun i =>
    let vk := toMat n fun k => readK2 g nK k2R (i.getD 1 0) (i.getD 2 0) k
    let vl := toMat n fun k => readK2 g nK lamR (i.getD 1 0) (i.getD 3 0) k
    toVec n (if left then mul n vl vk else mul n vk vl)
  fill d3 fun i =>
    read new d3 ((w3 (i.getD 1 0) (i.getD 2 0) (i.getD 3 0)).map fun p => ([0, p.1, p.2.1, p.2.2.1], p.2.2.2))
      (relabel r bubble left (i.getD 4 0))

end Verif.Sbe
