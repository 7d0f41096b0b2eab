import Verif.Index.Model
import Verif.Outcome

/-
Model of `multidimensional::multiarray<T, depth>`, /repo/source/multidimensional/multiarray.hpp,
and of `BlockView`, ranged_view.hpp.  The Eigen buffer `elements` is a `List`; Eigen's own index
assertions (`coeffRef`, `segment`) are active without `NDEBUG` and give `Fail.assertion`.
-/
namespace Verif.MultiArray
open Verif Verif.Index

/-- The three data members, multiarray.hpp:57-74. -/
structure MArr (α : Type u) where
  /-- `m_length` -/
  len : List Nat
  /-- `m_length_cumulative` -/
  cum : List Nat
  /-- `elements` -/
  elems : List α

/-- `get_cumul_length`, multiarray.hpp:57-64: `result[depth-1] = 1`,
`result[i] = result[i+1] * length[i+1]` downwards. -/
def cumulLength : List Nat → List Nat
  | [] => []
  | [_] => [1]
  | _ :: e :: ds =>
    match cumulLength (e :: ds) with
    | [] => []
    | c :: cs => (c * e) :: c :: cs

/-- `_flat_size`, multiarray.hpp:578-586. -/
def flatSize (len : List Nat) : Nat := len.foldl (· * ·) 1

/-- Constructor from a shape and a fill value, multiarray.hpp:93-97; the cumulative lengths are set
by the default member initialiser (66). -/
def MArr.make (len : List Nat) (v : α) : MArr α :=
  { len := len, cum := cumulLength len, elems := List.replicate (flatSize len) v }

/-- Constructor from a shape and a container, multiarray.hpp:105-121.  The parameter `elements`
is copied into the member `elements`, and then `elements.size()` (the parameter) is compared with
`this->size()`, which is `this->elements.size()` (line 554-557), not the product of the extents. -/
def MArr.ofContainer (len : List Nat) (els : List α) : Res (MArr α) :=
  let this : MArr α := { len := len, cum := cumulLength len, elems := els }
  if els.length ≠ this.elems.length then .error .exception else .ok this

/-- `flat_index`, multiarray.hpp:606-618. -/
def flatIndex (len index : List Nat) : Nat :=
  match index, len with
  | i :: is, _ :: ds => flatLoop i is ds
  | _, _ => 0

/-- `check_bounds`, multiarray.hpp:620-633 (`MULTIARRAY_CHECK_BOUNDS` is defined at line 18;
`index < 0` is vacuous for unsigned). -/
def checkBounds : List Nat → List Nat → Bool
  | i :: is, d :: ds => if i ≥ d then false else checkBounds is ds
  | _, _ => true

/-- `check_bounds_end`, multiarray.hpp:635-648. -/
def checkBoundsEnd : List Nat → List Nat → Bool
  | i :: is, d :: ds => if i > d then false else checkBoundsEnd is ds
  | _, _ => true

/-- `flat_at` (read), multiarray.hpp:359-362, through Eigen's checked `coeffRef`. -/
def MArr.flatAt (m : MArr α) (k : Nat) : Res α :=
  match m.elems[k]? with
  | some x => .ok x
  | none => .error .assertion

/-- `at` (read), multiarray.hpp:665-677: out of bounds is `assert(false)`. -/
def MArr.at (m : MArr α) (index : List Nat) : Res α :=
  if checkBounds index m.len then m.flatAt (flatIndex m.len index) else .error .assertion

/-- Assignment through the reference returned by `at`, multiarray.hpp:651-663. -/
def MArr.setAt (m : MArr α) (index : List Nat) (v : α) : Res (MArr α) :=
  if checkBounds index m.len then
    if flatIndex m.len index < m.elems.length then
      .ok { m with elems := m.elems.set (flatIndex m.len index) v }
    else .error .assertion
  else .error .assertion

/-- `elements.segment(start, n)`: Eigen asserts `start + n <= size`. -/
def segment (els : List α) (start n : Nat) : Res (List α) :=
  if start + n ≤ els.length then .ok ((els.drop start).take n) else .error .assertion

/-- `eigen_segment`, multiarray.hpp:192-218.  `flat_end - flat_start` is a wrapping unsigned
subtraction converted to Eigen's signed index: for `flat_end < flat_start` the length is negative
and Eigen asserts. -/
def MArr.eigenSegment (m : MArr α) (start stop : List Nat) : Res (List α) :=
  if checkBounds start m.len && checkBoundsEnd stop m.len then
    let fs := flatIndex m.len start
    let fe := flatIndex m.len stop
    if fe < fs then .error .assertion else segment m.elems fs (fe - fs)
  else .error .exception

/-- `at_vectorized<vecsize>(index)`, multiarray.hpp:235-244. -/
def MArr.atVectorized (m : MArr α) (vecsize : Nat) (index : List Nat) : Res (List α) :=
  if checkBounds index m.len then segment m.elems (flatIndex m.len index) vecsize
  else .error .assertion

/-- `at_vectorized<vecsize>(flat_idx)`, multiarray.hpp:245-250. -/
def MArr.atVectorizedFlat (m : MArr α) (vecsize flat : Nat) : Res (List α) :=
  if flat + vecsize ≤ m.elems.length then segment m.elems flat vecsize else .error .assertion

/-- `set_vectorized<vecsize>(value, index)`, multiarray.hpp:251-260; `value` has `vecsize` entries. -/
def MArr.setVectorized (m : MArr α) (value : List α) (index : List Nat) : Res (MArr α) :=
  if checkBounds index m.len then
    let fs := flatIndex m.len index
    if fs + value.length ≤ m.elems.length then
      .ok { m with elems := m.elems.take fs ++ value ++ m.elems.drop (fs + value.length) }
    else .error .assertion
  else .error .assertion

/-- Loop body of `get_flatindex_ini`, multiarray.hpp:266. -/
def iniStep (index cum : List Nat) (acc i : Nat) : Res Nat :=
  match index[i]?, cum[i]? with
  | some a, some c => .ok (acc + a * c)
  | _, _ => .error .undefined

/-- `get_flatindex_ini<num_first_dims>`, multiarray.hpp:262-269: sum over `i = 0 … num_first_dims`
(inclusive) of `index[i] * m_length_cumulative[i]`; `none` outside the arrays. -/
def MArr.getFlatIndexIni (m : MArr α) (numFirst : Nat) (index : List Nat) : Res Nat :=
  (List.range (numFirst + 1)).foldlM (iniStep index m.cum) 0

/-- The nested sampling loops of `get_values`, multiarray.hpp:280-300: the list of offsets
`Σ m_length_cumulative[pos+k] * i_k`, first loop outermost, `dims` loops of `sample` iterations. -/
def sampleOffsets (cum : List Nat) (sample : Nat) : Nat → Nat → List Nat
  | _, 0 => [0]
  | pos, dims + 1 =>
    (List.range sample).flatMap fun i =>
      (sampleOffsets cum sample (pos + 1) dims).map (cum.getD pos 0 * i + ·)

/-- `get_values<numberFrequencyDims, pos_first_freqpoint, vecsize, sample_size>`,
multiarray.hpp:271-306: the list of columns of the returned matrix. -/
def MArr.getValues (m : MArr α) (nfreq pos vecsize sample : Nat) (index : List Nat) :
    Res (List (List α)) := do
  if ¬ checkBounds index m.len then .error .assertion else
  let ini ← m.getFlatIndexIni (pos + nfreq) index
  if nfreq = 0 ∨ 3 < nfreq then .error .assertion else
  (sampleOffsets m.cum sample pos nfreq).mapM fun o => m.atVectorizedFlat vecsize (ini + o)

/-- `operator+=` etc. with another array, multiarray.hpp:396-426: `assert(is_same_length(rhs))`,
then entrywise (Eigen array arithmetic). -/
def MArr.zipAssign (op : α → α → α) (m rhs : MArr α) : Res (MArr α) :=
  if m.len = rhs.len then .ok { m with elems := List.zipWith op m.elems rhs.elems }
  else .error .assertion

/-- `operator+=` etc. with a scalar, multiarray.hpp:475-502, `abs`/`transform` (506-508, 697-703). -/
def MArr.mapAssign (f : α → α) (m : MArr α) : MArr α := { m with elems := m.elems.map f }

/-- friend `swap`, multiarray.hpp:78-85: exchanges `m_length` and `elements` but **not**
`m_length_cumulative`. -/
def MArr.swap (a b : MArr α) : MArr α × MArr α :=
  ({ len := b.len, cum := a.cum, elems := b.elems }, { len := a.len, cum := b.cum, elems := a.elems })

/-- Defaulted copy assignment, multiarray.hpp:132. -/
def MArr.assign (_lhs rhs : MArr α) : MArr α := rhs

/-- Constructor of `BlockView`, ranged_view.hpp:54-63: asserts that the block fits. -/
def blockFits : List Nat → List Nat → List Nat → Bool
  | s :: ss, l :: ls, d :: ds => if s + l > d then false else blockFits ss ls ds
  | _, _, _ => true

/-- The loop of `BlockView::flat_index`, ranged_view.hpp:90-98. -/
def blockFlatLoop : Nat → List Nat → List Nat → List Nat → Nat
  | acc, s :: ss, d :: ds, i :: is => blockFlatLoop (acc * d + (s + i)) ss ds is
  | acc, _, _, _ => acc

/-- `BlockView::flat_index`. -/
def blockFlatIndex (start stride index : List Nat) : Nat :=
  match start, stride, index with
  | s :: ss, _ :: ds, i :: is => blockFlatLoop (s + i) ss ds is
  | _, _, _ => 0

/-- `BlockView(data, start, length).at(index)`, ranged_view.hpp:100-112. -/
def MArr.blockAt (m : MArr α) (start length index : List Nat) : Res α :=
  if ¬ blockFits start length m.len then .error .assertion
  else if checkBounds index length then m.flatAt (blockFlatIndex start m.len index)
  else .error .assertion

/-- `BlockView::get_vec`, ranged_view.hpp:115-124. -/
def MArr.blockVec (m : MArr α) (start length : List Nat) : Res (List α) := do
  match getFlatSize length with
  | none => .error .undefined
  | some n =>
    (List.range n).mapM fun i =>
      match getMultIndex i length with
      | none => .error .undefined
      | some idx => m.blockAt start length idx

end Verif.MultiArray
