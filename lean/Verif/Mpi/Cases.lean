import Verif.Mpi.Props

/-! Concrete cases that meet the hypotheses of C09: seven points of width 2, three processes, four nodes, the writes of each
process in reverse order. -/
namespace Verif.Mpi
open Verif

theorem case_schedule (c : Cfg) (nomp : Nat) : ValidSchedule c nomp (fun _ i => (writeEvents c nomp i).reverse) :=
  fun _ _ => List.reverse_perm _

example : calculate (α := Int) ⟨3, 4, 7, 2⟩ (fun i => [10 * i, 10 * i + 1]) (· == 0)
    (fun _ i => (writeEvents ⟨3, 4, 7, 2⟩ 2 i).reverse) = .ok (sequential 7 fun i => [10 * i, 10 * i + 1]) :=
  c09_parallel_evaluation ⟨3, 4, 7, 2⟩ _ _ _ (by decide) (by decide) (fun _ _ => rfl) rfl (case_schedule _ _)

example : ∃ out, calculate (α := Int) ⟨3, 4, 7, 2⟩ (fun i => [10 * i, 10 * i + 1]) (· == 0)
    (fun _ i => (writeEvents ⟨3, 4, 7, 2⟩ 2 i).reverse) = .ok out ∧ out[3 * 2 + 1]? = some 31 := by
  obtain ⟨out, h, -, h'⟩ := c09_entry (α := Int) ⟨3, 4, 7, 2⟩ (fun i => [10 * i, 10 * i + 1]) (· == 0)
    (fun _ i => (writeEvents ⟨3, 4, 7, 2⟩ 2 i).reverse) (by decide) (by decide) (fun _ _ => rfl) rfl (case_schedule _ _)
  exact ⟨out, h, h' 3 (by decide) 1 (by decide)⟩

example : calculate (α := Int) ⟨3, 4, 7, 2⟩ (fun i => [10 * i, 10 * i + 1]) (· == 0)
      (fun _ i => (writeEvents ⟨3, 4, 7, 2⟩ 2 i).reverse)
    = calculate (α := Int) ⟨2, 1, 7, 2⟩ (fun i => [10 * i, 10 * i + 1]) (· == 0)
      (fun _ i => (writeEvents ⟨2, 1, 7, 2⟩ 7 i).reverse) :=
  c09_independent 7 2 _ _ (fun _ _ => rfl) rfl 3 2 4 1 _ _ (by decide) (by decide) (by decide) (by decide)
    (case_schedule _ _) (case_schedule _ _)

end Verif.Mpi
