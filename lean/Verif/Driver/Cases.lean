import Verif.Driver.PropsScan
import Verif.Driver.PropsMain
import Verif.FileName.Props

/-! Concrete cases for C151, C152 and C153. -/
namespace Verif.Driver

open Verif.FileName Verif.Parquet

/-- Parquet equations with constant right-hand side, one per level position: converged after the first step. -/
noncomputable def level : Physics ℝ where
  prep _ _ _ := 0
  prob _ c _ := ⟨fun _ => c.epsilon, fun h _ => (h.getLast?.map (·.1)).getD 0, fun _ _ => some 0, fun _ _ => some 0⟩

theorem level_converges (b : Build) (c : Config) : ownConverges level b c = true ∧ ownStart level b c = c.epsilon := by
  have h : (pass (level.prob b c b.lambdaIni) (1 / 10 ^ 6) (loopStart 1 (0 : ℝ))).2 = true := by
    show isConverged _ (some 0) (some 0) = true
    rw [isConverged, flt]
    simp only [Bool.or_self, Bool.not_eq_true']
    norm_num
  have e : solve (level.prob b c b.lambdaIni) (1 / 10 ^ 6) 10 1 (level.prep b c b.lambdaIni) =
      pass (level.prob b c b.lambdaIni) (1 / 10 ^ 6) (loopStart 1 (0 : ℝ)) := by
    show loop _ _ 9 _ = _
    rw [loop]
    exact if_pos h
  constructor
  · rw [ownConverges, e]; exact h
  · rw [ownStart, e]; rfl

/-- The configurations of two flows at different level positions. -/
def here : Config := ⟨1, 1, 1, 1 / 100, 1 / 5, 0, 0, 0⟩

/-- The flow at level position one starts from the solution at level position zero. -/
theorem case_level : ownStart level distributed { here with epsilon := 1 } = 1 ∧
    (prepare level distributed { here with epsilon := 1 } (prepare level distributed here (fun _ => none)).1).2 = .ok 0 := by
  refine ⟨by rw [(level_converges _ _).2]; norm_num, ?_⟩
  rw [c151_level_refuted level distributed here 1 _ rfl (level_converges _ _).1, (level_converges _ _).2]
  norm_num [here]

/-- A scan over two values leaves both results. -/
theorem case_scan (d : Disk ℝ) :
    Holds (runParquet level distributed here [1, 2] 1 true d).1 (scanFin distributed here 1 (2 * 1 / 1 - 1 / 5))
      (ownScan level distributed here (2 * 1 / 1 - 1 / 5)).1.stateIn ∧
    Holds (runParquet level distributed here [1, 2] 1 true d).1 (scanFin distributed here 1 (2 * 1 / 2 - 1 / 5))
      (ownScan level distributed here (2 * 1 / 2 - 1 / 5)).1.stateIn := by
  constructor
  · exact c152_result_partial level distributed here 1 d (by norm_num [here]) [] 1 [2] (by simp) (by norm_num [here])
      (by norm_num [here, distributed]) (by norm_num) (by
        intro x hx
        rw [List.mem_singleton] at hx
        subst hx
        exact ⟨by norm_num, fun h => absurd h.2 (by decide +kernel)⟩)
  · exact c152_result_partial level distributed here 1 d (by norm_num [here]) [1] 2 [] (by norm_num [here])
      (by norm_num [here]) (by norm_num [here, distributed]) (by norm_num) (by simp)

/-- A converged file of an earlier scan is taken over. -/
example (s : ℝ) : Holds (runParquet level distributed here [1] 1 false
    (Disk.put (fun _ => none) (scanAll distributed here 1 (2 * 1 / 1 - 1 / 5)) (fileOf [⟨4, s, true⟩]))).1
    (scanFin distributed here 1 (2 * 1 / 1 - 1 / 5)) s :=
  ((c152_kept_partial level distributed here 1 (Disk.put (fun _ => none) (scanAll distributed here 1 (2 * 1 / 1 - 1 / 5))
    (fileOf [⟨4, s, true⟩])) 1 (by norm_num [here]) (by norm_num [here, distributed]) (fileOf [⟨4, s, true⟩]) s (put_self _ _ _)
    (by rfl)).1 (by rfl)).2.1

/-- Values that print alike. -/
example (d : Disk ℝ) :
    Holds (runParquet level distributed here [1, 1 + 1 / 10 ^ 7] 1 true d).1 (scanFin distributed here 1 (2 * 1 / 1 - 1 / 5))
      (ownScan level distributed here (2 * 1 / (1 + 1 / 10 ^ 7) - 1 / 5)).1.stateIn :=
  c152_precision_refuted level distributed here 1 d (by norm_num [here]) 1 (1 + 1 / 10 ^ 7) (by norm_num) (by norm_num)
    ⟨by norm_num, by decide +kernel⟩ (by norm_num [here]) (by norm_num [here]) (by norm_num [here, distributed])

/-- The name of a file. -/
example : scanFin distributed here 1 (2 * 1 / 2 - 1 / 5) =
    ("../Data_KF_debug/parquetInit4_U_over_Delta=2.000000_T=0.010000_eVg=0.500000_n1=51_n2=27_n3=19" ++
      "_version1_final.h5").toList := by decide +kernel

/-- Executables with the default options. -/
def flags : Flags := ⟨false, false, true⟩

/-- The command line `2 1 0.01`. -/
example : (∃ r, main flags distributed (22 / 7) (fun _ => 1 / 100) ["2".toList, "1".toList, "0.01".toList] = .ok r) ∧
    (Asked 2).toList = [Task.flow] := by
  have h := (c153_asked_partial flags distributed (22 / 7) (fun _ => 1 / 100) 2 1 "0.01".toList [] (by norm_num)
    (by norm_num)).2
  have e : showInt 2 = "2".toList ∧ showInt 1 = "1".toList := by decide +kernel
  rw [e.1, e.2] at h
  exact ⟨h.mpr (Or.inr ⟨fun h => absurd h (by decide), fun _ => by norm_num [distributed]⟩), by decide⟩

/-- The command line `--help` starts a parquet calculation, or would, if it had three arguments. -/
example : atoi "help".toList = .ok 0 ∧ atoi "--help".toList = .ok 0 ∧ tasks 0 = [Task.parquet] :=
  ⟨c153_letters_refuted 'h' "elp".toList (by decide), by decide, by decide⟩

end Verif.Driver
