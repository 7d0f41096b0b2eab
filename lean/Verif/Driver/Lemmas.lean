import Verif.Driver.Spec

/-! Files left by the solver. -/
namespace Verif.Driver

open Verif.FileName Verif.Parquet

variable {S : Type}

theorem pass_saved (P : Problem S) (acc : ℝ) (s : LoopState S) :
    ∃ l, (pass P acc s).1.saved = s.saved ++ [⟨l, (pass P acc s).1.stateIn, (pass P acc s).2⟩] := ⟨_, rfl⟩

/-- The layers written by the loop: only the last one can be marked as converged, and it is the result. -/
theorem loop_saved (P : Problem S) (acc : ℝ) (k : ℕ) (s : LoopState S) (h : s.saved.any (·.converged) = false) :
    (∃ l m, (loop P acc k s).1.saved = m ++ [⟨l, (loop P acc k s).1.stateIn, (loop P acc k s).2⟩]) ∧
      (loop P acc k s).1.saved.any (·.converged) = (loop P acc k s).2 := by
  induction k generalizing s with
  | zero =>
    obtain ⟨l, hl⟩ := pass_saved P acc s
    rw [loop]
    refine ⟨⟨l, _, hl⟩, ?_⟩
    rw [hl, List.any_append, h]
    simp
  | succ k ih =>
    obtain ⟨l, hl⟩ := pass_saved P acc s
    rw [loop]
    cases hc : (pass P acc s).2
    · simp only [hc, Bool.false_eq_true, if_false]
      apply ih
      rw [hl, List.any_append, h, hc]
      rfl
    · simp only [hc, if_true]
      refine ⟨⟨l, _, by rw [hl, hc]⟩, ?_⟩
      rw [hl, List.any_append, h, hc]
      rfl

/-- What a later run finds in the file of a solver run. -/
theorem fileOf_solve (P : Problem S) (acc : ℝ) (Nmax : ℕ) (mix : ℝ) (s : S) :
    (fileOf (solve P acc Nmax mix s).1.saved).converged = (solve P acc Nmax mix s).2 ∧
      0 ≤ (fileOf (solve P acc Nmax mix s).1.saved).last ∧
      (fileOf (solve P acc Nmax mix s).1.saved).read (fileOf (solve P acc Nmax mix s).1.saved).last =
        some (solve P acc Nmax mix s).1.stateIn := by
  obtain ⟨⟨l, m, h1⟩, h2⟩ := loop_saved P acc (Nmax - 1) (loopStart mix s) rfl
  refine ⟨h2, ?_, ?_⟩
  · simp only [solve, fileOf, h1]
    simp
  · simp only [solve, fileOf, h1]
    simp

/-- The solver on the file left by an earlier run, not overwriting. -/
theorem solver_again (P P' : Problem S) (acc acc' : ℝ) (N N' : ℕ) (mix : ℝ) (s s' : S) :
    parquetSolver P' (some (fileOf (solve P acc N mix s).1.saved)) s' acc' N' false 1 false =
      if (solve P acc N mix s).2 then .ok (.loaded (solve P acc N mix s).1.stateIn false)
      else .ok (.ran (solve P acc N mix s).1.stateIn (solve P' acc' N' 1 (solve P acc N mix s).1.stateIn)) := by
  obtain ⟨h1, h2, h3⟩ := fileOf_solve P acc N mix s
  unfold parquetSolver
  rw [if_neg (by simp)]
  simp only [Bool.false_eq_true, if_false, h1, Bool.false_and, Bool.or_false, readLayer, h3, ge_iff_le, h2, if_true]

theorem solver_none (P : Problem S) (s : S) (acc : ℝ) (N : ℕ) (ow : Bool) :
    parquetSolver P none s acc N ow 1 false = .ok (.ran s (solve P acc N 1 s)) := by
  unfold parquetSolver
  rw [if_neg (by simp)]
  cases ow <;> simp

theorem solver_over (P : Problem S) (f : Option (File S)) (s : S) (acc : ℝ) (N : ℕ) :
    parquetSolver P f s acc N true 1 false = .ok (.ran s (solve P acc N 1 s)) := by
  unfold parquetSolver
  rw [if_neg (by simp)]
  simp

theorem put_self (d : Disk S) (p : Str) (f : File S) : d.put p f p = some f := by simp [Disk.put]

theorem put_other (d : Disk S) {p q : Str} (f : File S) (h : q ≠ p) : d.put p f q = d q := by simp [Disk.put, h]

end Verif.Driver
