import Verif.Driver.Lemmas

/-! C151: the state from which a flow starts, and what earlier runs have to do with it. -/
namespace Verif.Driver

open Verif.FileName Verif.Parquet

variable {S : Type}

/-- **C151** (what holds without earlier files).  If the directory has no file with an initial parquet solution, the flow
starts from the state of its own parameters, which is stored, marked as converged exactly if it is. -/
theorem c151_fresh_partial (Ph : Physics S) (b : Build) (c : Config) (d : Disk S) (h : d (initPath b c) = none) :
    (prepare Ph b c d).2 = .ok (ownStart Ph b c) ∧
      (∃ f, (prepare Ph b c d).1 (initPath b c) = some f ∧ f.converged = ownConverges Ph b c ∧
        f.read f.last = some (ownStart Ph b c)) ∧
      ∀ p, p ≠ initPath b c → (prepare Ph b c d).1 p = d p := by
  have e : prepare Ph b c d = (d.put (initPath b c)
      (fileOf (solve (Ph.prob b c b.lambdaIni) (1 / 10 ^ 6) 10 1 (Ph.prep b c b.lambdaIni)).1.saved),
      .ok (ownStart Ph b c)) := by
    unfold prepare
    rw [h, solver_none]
    rfl
  obtain ⟨h1, _, h3⟩ := fileOf_solve (Ph.prob b c b.lambdaIni) (1 / 10 ^ 6) 10 1 (Ph.prep b c b.lambdaIni)
  rw [e]
  exact ⟨rfl, ⟨_, put_self _ _ _, h1, h3⟩, fun p hp => put_other _ _ hp⟩

/-- **C151** (what holds with earlier files).  A second flow whose directory and numbers of frequencies are the same
starts from the earlier solution if that is converged; otherwise from further iterations, with its own equations, on top
of it.  Its own second-order state has no influence in either case. -/
theorem c151_reuse_partial (Ph : Physics S) (b b' : Build) (c c' : Config) (d : Disk S)
    (hp : initPath b' c' = initPath b c) (h : d (initPath b c) = none) :
    (prepare Ph b' c' (prepare Ph b c d).1).2 = .ok
      (if ownConverges Ph b c then ownStart Ph b c
       else (solve (Ph.prob b' c' b'.lambdaIni) (1 / 10 ^ 6) 10 1 (ownStart Ph b c)).1.stateIn) := by
  have e : (prepare Ph b c d).1 = d.put (initPath b c)
      (fileOf (solve (Ph.prob b c b.lambdaIni) (1 / 10 ^ 6) 10 1 (Ph.prep b c b.lambdaIni)).1.saved) := by
    unfold prepare
    rw [h, solver_none]
  rw [e]
  unfold prepare
  rw [hp, put_self, solver_again]
  cases hc : ownConverges Ph b c
  · have hc' : (solve (Ph.prob b c b.lambdaIni) (1 / 10 ^ 6) 10 1 (Ph.prep b c b.lambdaIni)).2 = false := hc
    simp only [hc', Bool.false_eq_true, if_false]
    rfl
  · have hc' : (solve (Ph.prob b c b.lambdaIni) (1 / 10 ^ 6) 10 1 (Ph.prep b c b.lambdaIni)).2 = true := hc
    simp only [hc', if_true]
    rfl

/-- A disk whose initial solution at the path is a converged one. -/
def Settled (d : Disk S) (p : Str) (s : S) : Prop := ∃ f, d p = some f ∧ f.converged = true ∧ f.read f.last = some s

theorem settled_prepare (Ph : Physics S) (b : Build) (c : Config) (d : Disk S) (p : Str) (s : S) (h : Settled d p s) :
    Settled (prepare Ph b c d).1 p s ∧ (initPath b c = p → (prepare Ph b c d).2 = .ok s) := by
  obtain ⟨f, h1, h2, h3⟩ := h
  by_cases hp : initPath b c = p
  · have e : prepare Ph b c d = (d, .ok s) := by
      unfold prepare parquetSolver
      rw [hp, h1]
      simp [h2, readLayer, h3]
    rw [e]
    exact ⟨⟨f, h1, h2, h3⟩, fun _ => rfl⟩
  · refine ⟨⟨f, ?_, h2, h3⟩, fun h => absurd h hp⟩
    unfold prepare
    split
    · exact h1
    · exact h1
    · exact (put_other _ _ (Ne.symm hp)).trans h1

/-- **C151** (what holds once the solution is converged).  After a first flow with parameters `c` whose parquet iteration
converged, and any further flows, a flow with parameters `c` starts from its own state. -/
theorem c151_converged_partial (Ph : Physics S) (b : Build) (c : Config) (later : List (Build × Config)) (d : Disk S)
    (h : d (initPath b c) = none) (hc : ownConverges Ph b c = true) :
    (prepare Ph b c (later.foldl (fun d x => (prepare Ph x.1 x.2 d).1) (prepare Ph b c d).1)).2 =
      .ok (ownStart Ph b c) := by
  have h0 : Settled (prepare Ph b c d).1 (initPath b c) (ownStart Ph b c) := by
    obtain ⟨_, ⟨f, hf, hf1, hf2⟩, _⟩ := c151_fresh_partial Ph b c d h
    exact ⟨f, hf, by rw [hf1, hc], hf2⟩
  have h1 : ∀ (l : List (Build × Config)) (d : Disk S), Settled d (initPath b c) (ownStart Ph b c) →
      Settled (l.foldl (fun d x => (prepare Ph x.1 x.2 d).1) d) (initPath b c) (ownStart Ph b c) := by
    intro l
    induction l with
    | nil => exact fun d h => h
    | cons x l ih => exact fun d h => ih _ (settled_prepare Ph x.1 x.2 d _ _ h).1
  exact (settled_prepare Ph b c _ _ _ (h1 later _ h0)).2 rfl

/-- **C151** fails for the level position in every executable (for any interaction and temperature with
`DEBUG_SYMMETRIES`): if the directory holds the converged solution of a run at another level position, the flow starts
from the solution of that run. -/
theorem c151_level_refuted (Ph : Physics S) (b : Build) (c : Config) (ε : ℚ) (d : Disk S) (h : d (initPath b c) = none)
    (hc : ownConverges Ph b c = true) :
    (prepare Ph b { c with epsilon := ε } (prepare Ph b c d).1).2 = .ok (ownStart Ph b c) := by
  rw [c151_reuse_partial Ph b b c { c with epsilon := ε } d rfl h, hc]
  rfl

/-- See `c151_level_refuted`. -/
theorem c151_parameters_refuted (Ph : Physics S) (b : Build) (hb : b.debugSymm = true) (c c' : Config) (d : Disk S)
    (h : d (initPath b c) = none) (hc : ownConverges Ph b c = true) :
    (prepare Ph b c' (prepare Ph b c d).1).2 = .ok (ownStart Ph b c) := by
  have hp : initPath b c' = initPath b c := by
    cases hk : b.keldysh <;> simp [initPath, directory, hb, hk]
  rw [c151_reuse_partial Ph b b c c' d hp h, hc]
  rfl

/-- Parquet equations whose iteration halves a number, with a relative deviation that is never small. -/
noncomputable def halving : Problem ℝ where
  rhs x := x / 2
  upd h _ := (h.getLast?.map (·.1)).getD 0
  relV _ _ := some 1
  relS _ _ := some 1

theorem halving_pass (s : LoopState ℝ) :
    (pass halving (1 / 10 ^ 6) s).1.stateIn = s.stateIn / 2 ∧ (pass halving (1 / 10 ^ 6) s).2 = false := by
  constructor
  · show ((pushBounded 4 s.hist (s.stateIn / 2, s.stateIn)).getLast?.map (·.1)).getD 0 = s.stateIn / 2
    unfold pushBounded
    simp only []
    split_ifs with h
    · have : 0 < s.hist.length := by
        rw [List.length_append] at h; simp at h; omega
      rcases hs : s.hist with _ | ⟨x, l⟩
      · simp [hs] at this
      · simp
    · simp
  · show isConverged _ (some 1) (some 1) = false
    rw [isConverged, flt]
    simp only [Bool.or_self, Bool.not_eq_false']
    norm_num

theorem halving_loop (k : ℕ) (s : LoopState ℝ) :
    (loop halving (1 / 10 ^ 6) k s).1.stateIn = s.stateIn / 2 ^ (k + 1) ∧ (loop halving (1 / 10 ^ 6) k s).2 = false := by
  induction k generalizing s with
  | zero => rw [loop]; simpa using halving_pass s
  | succ k ih =>
    obtain ⟨h1, h2⟩ := halving_pass s
    rw [loop]
    simp only [h2, Bool.false_eq_true, if_false]
    obtain ⟨h3, h4⟩ := ih (pass halving (1 / 10 ^ 6) s).1
    refine ⟨?_, h4⟩
    rw [h3, h1, pow_succ 2 (k + 1), div_div, mul_comm]

theorem halving_solve (x : ℝ) :
    (solve halving (1 / 10 ^ 6) 10 1 x).1.stateIn = x / 1024 ∧ (solve halving (1 / 10 ^ 6) 10 1 x).2 = false := by
  obtain ⟨h1, h2⟩ := halving_loop 9 (loopStart 1 x)
  refine ⟨?_, h2⟩
  rw [solve, h1]
  norm_num [loopStart]

/-- **C151** fails: a flow that is started after another one with the same parameters (say with a different number of loops,
or after the result was deleted) does not start from the same state as the first one, because it continues the parquet
iteration that the first one had not completed. -/
theorem c151_history_refuted (b : Build) : ¬ StartsFromItsOwnState ℝ b := by
  intro h
  have c : Config := ⟨1, 1, 1, 1, 1, 1, 1, 1⟩
  have h2 := h ⟨fun _ _ _ => 1, fun _ _ _ => halving⟩ [c] c (fun _ => none) (fun _ => rfl)
  rw [List.foldl_cons, List.foldl_nil, c151_reuse_partial _ b b c c _ rfl rfl] at h2
  have hn : ownConverges ⟨fun _ _ _ => 1, fun _ _ _ => halving⟩ b c = false := (halving_solve 1).2
  have ho : ownStart ⟨fun _ _ _ => 1, fun _ _ _ => halving⟩ b c = 1 / 1024 := (halving_solve 1).1
  rw [hn, ho] at h2
  simp only [Bool.false_eq_true, if_false, (halving_solve _).1] at h2
  injection h2 with h2
  norm_num at h2

end Verif.Driver
