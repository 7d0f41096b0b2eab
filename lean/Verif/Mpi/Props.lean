import Verif.Mpi.Lemmas2

/-! C09: the distributed evaluation equals the sequential one. -/
namespace Verif.Mpi
open Verif

/-- C09.  For every number of processes and nodes, every component size and vectorisation width, and every
interleaving of the threads' writes on every process, the assembled component is the sequentially evaluated
one; neither the padding assertion nor an out-of-bounds access occurs. -/
theorem c09_parallel_evaluation [Zero α] (c : Cfg) (val : Nat → List α) (small : α → Bool)
    (sched : Nat → Nat → List (Nat × Nat))
    (hws : 0 < c.ws) (hnodes : 0 < c.nodes)
    (hval : ∀ i < c.dims, (val i).length = c.nvec) (hsmall : small 0 = true)
    (hs : ValidSchedule c ((c.dims + c.nodes - 1) / c.nodes) sched) :
    calculate c val small sched = .ok (sequential c.dims val) :=
  calculate_eq c val small sched _ hws hnodes (by simp [nOmp, Nat.ne_of_gt hnodes]) hval hsmall hs

/-- The entry for external index `i` and vector component `k` is stored at `i * n_vectorization + k`. -/
theorem c09_entry [Zero α] (c : Cfg) (val : Nat → List α) (small : α → Bool)
    (sched : Nat → Nat → List (Nat × Nat))
    (hws : 0 < c.ws) (hnodes : 0 < c.nodes)
    (hval : ∀ i < c.dims, (val i).length = c.nvec) (hsmall : small 0 = true)
    (hs : ValidSchedule c ((c.dims + c.nodes - 1) / c.nodes) sched) :
    ∃ out, calculate c val small sched = .ok out ∧ out.length = c.dims * c.nvec ∧
      ∀ i < c.dims, ∀ k < c.nvec, out[i * c.nvec + k]? = (val i)[k]? := by
  refine ⟨_, c09_parallel_evaluation c val small sched hws hnodes hval hsmall hs,
    sequential_length _ _ _ hval, ?_⟩
  intro i hi k hk
  exact getElem?_flatMap_range val c.nvec c.dims i k hval hi hk

/-- Changing the number of processes, the number of nodes or the schedule does not change the result. -/
theorem c09_independent [Zero α] (dims nvec : Nat) (val : Nat → List α) (small : α → Bool)
    (hval : ∀ i < dims, (val i).length = nvec) (hsmall : small 0 = true)
    (ws ws' nodes nodes' : Nat) (sched sched' : Nat → Nat → List (Nat × Nat))
    (hws : 0 < ws) (hws' : 0 < ws') (hn : 0 < nodes) (hn' : 0 < nodes')
    (hs : ValidSchedule ⟨ws, nodes, dims, nvec⟩ ((dims + nodes - 1) / nodes) sched)
    (hs' : ValidSchedule ⟨ws', nodes', dims, nvec⟩ ((dims + nodes' - 1) / nodes') sched') :
    calculate ⟨ws, nodes, dims, nvec⟩ val small sched
      = calculate ⟨ws', nodes', dims, nvec⟩ val small sched' := by
  rw [c09_parallel_evaluation ⟨ws, nodes, dims, nvec⟩ val small sched hws hn hval hsmall hs,
    c09_parallel_evaluation ⟨ws', nodes', dims, nvec⟩ val small sched' hws' hn' hval hsmall hs']

/-- A configured node count of zero (the command line is not validated) divides by zero. -/
theorem c09_zero_nodes [Zero α] (c : Cfg) (val : Nat → List α) (small : α → Bool)
    (sched : Nat → Nat → List (Nat × Nat)) (h : c.nodes = 0) :
    calculate c val small sched = .error .undefined := by
  simp [calculate, nOmp, h, bind, Except.bind]

/-- The program order is a valid schedule, and so is its reversal: the hypotheses can be met. -/
example (c : Cfg) (nomp : Nat) : ValidSchedule c nomp (fun _ i => writeEvents c nomp i) :=
  fun _ _ => List.Perm.refl _

example (c : Cfg) (nomp : Nat) : ValidSchedule c nomp (fun _ i => (writeEvents c nomp i).reverse) :=
  fun _ _ => List.reverse_perm _

/-- Seven points of width 2 on three processes and four nodes (uneven division), reversed thread order. -/
example : calculate (α := Int) ⟨3, 4, 7, 2⟩ (fun i => [10 * i, 10 * i + 1]) (· == 0)
    (fun _ i => (writeEvents ⟨3, 4, 7, 2⟩ 2 i).reverse)
    = .ok [0, 1, 10, 11, 20, 21, 30, 31, 40, 41, 50, 51, 60, 61] := by decide +kernel

end Verif.Mpi
