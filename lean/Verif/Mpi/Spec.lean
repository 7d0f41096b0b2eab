import Verif.Mpi.Model

/- Specification of the distributed evaluation. -/
namespace Verif.Mpi

/-- Sequential evaluation: the results for all external indices, in storage order. -/
def sequential (dims : Nat) (val : Nat → List α) : List α := (List.range dims).flatMap val

/-- A thread schedule performs every write of the parallel loop exactly once, in any order (any
interleaving of the threads' writes). -/
def ValidSchedule (c : Cfg) (nomp : Nat) (sched : Nat → Nat → List (Nat × Nat)) : Prop :=
  ∀ r iMpi, (sched r iMpi).Perm (writeEvents c nomp iMpi)

end Verif.Mpi
