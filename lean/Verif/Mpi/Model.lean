import Verif.Outcome

/-
Model of the distributed evaluation of a vertex component:
`BubbleFunctionCalculator::calculate_bubble_function`, /repo/source/bubble/bubble_function.hpp:251-305,
`set_external_arguments_for_parallelization` (607-645) and the MPI helpers in
/repo/source/utilities/mpi_setup.hpp:27-95, mpi_setup.c++.

The integrals are abstracted to `val : Nat → List α`: the vector of `n_vectorization` results for the
flat external index (`get_value`, bubble_function.hpp:307-, is a function of the external indices and of
read-only vertices).  Fresh `vec<Q>` buffers are zero-initialised.
-/
namespace Verif.Mpi
open Verif

variable {α : Type}

/-- Parameters of one evaluation. -/
structure Cfg where
  /-- `mpi_world_size()` -/
  ws : Nat
  /-- `number_of_nodes` (from the configuration) -/
  nodes : Nat
  /-- `dimsKi_flat`, number of external index combinations -/
  dims : Nat
  /-- `n_vectorization` -/
  nvec : Nat

/-- `n_omp = (dims_flat + n_mpi - 1) / n_mpi`, bubble_function.hpp:629; `n_mpi = number_of_nodes`.
Division by zero for `number_of_nodes = 0`. -/
def nOmp (c : Cfg) : Res Nat :=
  if c.nodes = 0 then .error .undefined else .ok ((c.dims + c.nodes - 1) / c.nodes)

/-- The single buffer writes `(i_omp, k)` that the parallel loop performs for one `i_mpi`, in program
order; bubble_function.hpp:275-282 (including the guard of line 276). -/
def writeEvents (c : Cfg) (nomp iMpi : Nat) : List (Nat × Nat) :=
  (List.range nomp).flatMap fun iOmp =>
    if iMpi * nomp + iOmp < c.dims then (List.range c.nvec).map fun k => (iOmp, k) else []

/-- One write `Buffer[(iterator * n_omp + i_omp) * n_vectorization + k] = value[k]`, line 279.
Reading `value[k]` or writing the buffer out of bounds is undefined. -/
def writeOne (c : Cfg) (val : Nat → List α) (nomp iMpi iterator : Nat) (buf : List α)
    (e : Nat × Nat) : Res (List α) :=
  match (val (iMpi * nomp + e.1))[e.2]? with
  | none => .error .undefined
  | some x =>
    let p := (iterator * nomp + e.1) * c.nvec + e.2
    if p < buf.length then .ok (buf.set p x) else .error .undefined

/-- The work of one rank, lines 264-285.  `sched iMpi` is the order in which the threads of the parallel
loop perform the individual writes for `iMpi`.  State: the local counter `iterator` and the buffer. -/
def rankLoop (c : Cfg) (val : Nat → List α) (nomp rank : Nat) (sched : Nat → List (Nat × Nat)) :
    Nat → Nat × List α → Res (Nat × List α)
  | 0, st => .ok st
  | n + 1, st => do
    let st ← rankLoop c val nomp rank sched n st
    if n % c.ws = rank then
      let buf ← (sched n).foldlM (writeOne c val nomp n st.1) st.2
      .ok (st.1 + 1, buf)
    else .ok st

/-- `mpi_initialize_buffer(n_mpi, n_omp * n_vectorization)`, mpi_setup.hpp:27-32. -/
def initBuffer [Zero α] (c : Cfg) (nomp : Nat) : List α :=
  List.replicate (nomp * c.nvec * (c.nodes / c.ws + 1)) 0

/-- `MPI_Allgather` (mpi_setup.c++:16-27): the send buffers of all ranks, in rank order. Contract of the
library: every rank receives the concatenation of `count` entries per rank; reading beyond a send buffer or
writing beyond the result buffer (`mpi_initialize_result`, mpi_setup.hpp:42-47) is undefined. -/
def allgather (c : Cfg) (blk : Nat) (bufs : List (List α)) : Res (List α) :=
  let count := blk * (c.nodes / c.ws + 1)
  if bufs.all (fun b => decide (count ≤ b.length)) &&
      decide (bufs.length * count ≤ blk * (c.nodes - c.nodes % c.ws + c.ws)) then
    .ok (bufs.flatMap (·.take count))
  else .error .undefined

/-- Copy of `n_omp` entries between iterators; outside the vector undefined. -/
def slice (l : List α) (start n : Nat) : Res (List α) :=
  if start + n ≤ l.length then .ok ((l.drop start).take n) else .error .undefined

/-- `mpi_reorder_result`, mpi_setup.hpp:76-95; `blk` is its parameter `n_omp`. -/
def reorder (c : Cfg) (blk : Nat) (result : List α) : Res (List α) := do
  let q := c.nodes / c.ws
  let part1 ← (List.range q).mapM fun i =>
    (List.range c.ws).mapM fun j => slice result ((j * (q + 1) + i) * blk) blk
  let part2 ← (List.range c.ws).mapM fun j =>
    if c.nodes % c.ws > j then slice result ((j * (q + 1) + q) * blk) blk else .ok []
  .ok ((part1.map List.flatten).flatten ++ part2.flatten)

/-- `calculate_bubble_function` up to the data handed to `write_out_results` (lines 252-300), as seen by
any rank.  `sched rank iMpi` is the thread schedule; `small x` is the assertion `abs(x) < 1e-12` on the
superfluous entries (292-297); `resize` (299) cuts or zero-fills. -/
def calculate [Zero α] (c : Cfg) (val : Nat → List α) (small : α → Bool)
    (sched : Nat → Nat → List (Nat × Nat)) : Res (List α) := do
  let nomp ← nOmp c
  let bufs ← (List.range c.ws).mapM fun r => do
    let st ← rankLoop c val nomp r (sched r) c.nodes (0, initBuffer c nomp)
    .ok st.2
  let result ← allgather c (nomp * c.nvec) bufs
  let ordered ← reorder c (nomp * c.nvec) result
  let target := c.dims * c.nvec
  if (ordered.drop target).all small then
    .ok (ordered.take target ++ List.replicate (target - ordered.length) 0)
  else .error .assertion

end Verif.Mpi
