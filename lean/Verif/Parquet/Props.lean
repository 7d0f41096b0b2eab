import Verif.Parquet.Model
import Verif.Anderson.Props
import Mathlib.Analysis.Complex.Basic
import Mathlib.Tactic.Linarith
import Mathlib.Tactic.NormNum
import Mathlib.Tactic.FieldSimp

/-! C55–C58: the parquet iteration. -/
namespace Verif.Parquet

variable {S : Type}

/-- A deviation is a number within the accuracy. -/
def Within (acc : ℝ) (d : Option ℝ) : Prop := ∃ x, d = some x ∧ x ≤ acc

theorem flt_some_left (acc : ℝ) (d : Option ℝ) : flt (some acc) d = true ↔ ∃ x, d = some x ∧ acc < x := by
  cases d <;> simp [flt]

theorem isConverged_iff (acc : ℝ) (dv ds : Option ℝ) :
    isConverged acc dv ds = true ↔ (dv = none ∨ Within acc dv) ∧ (ds = none ∨ Within acc ds) := by
  unfold isConverged Within
  cases dv <;> cases ds <;> simp [flt]

theorem adapt_bounds (i : ℕ) (mix : ℝ) (devs : List (Option ℝ)) (h : 1 / 100 ≤ mix) :
    1 / 100 ≤ adapt i mix devs ∧ adapt i mix devs ≤ mix := by
  unfold adapt
  split
  · rename_i hc
    exact ⟨le_max_right _ _, max_le (by linarith) hc.2.1.le⟩
  · exact ⟨h, le_refl _⟩

/-- What holds of a finished loop started at `s₀`. -/
structure Report (P : Problem S) (acc : ℝ) (s₀ : LoopState S) (budget : ℕ) (r : LoopState S × Bool) : Prop where
  /-- number of passes -/
  least : s₀.iteration + 1 ≤ r.1.iteration
  most : r.1.iteration ≤ s₀.iteration + budget
  /-- the reported flag is the one computed from the last pair of input and output -/
  flag : ∃ sIn mixIn hist, r.1.stateIn = P.upd hist mixIn ∧
    r.2 = isConverged acc (P.relV sIn r.1.stateIn) (P.relS sIn r.1.stateIn)
  /-- an unfinished result used the whole budget -/
  exhausted : r.2 = false → r.1.iteration = s₀.iteration + budget
  /-- mixing bounds -/
  mixLow : 1 / 100 ≤ s₀.mix → 1 / 100 ≤ r.1.mix
  mixHigh : 1 / 100 ≤ s₀.mix → r.1.mix ≤ s₀.mix
  /-- the returned state is what was saved last, with the returned flag -/
  savedLast : r.1.saved.getLast? = some ⟨(r.1.iteration - 1) % 5, r.1.stateIn, r.2⟩
  /-- only the last saved layer can be flagged as converged -/
  savedOthers : (∀ x ∈ s₀.saved, x.converged = false) → ∀ x ∈ r.1.saved.dropLast, x.converged = false

theorem pass_report (P : Problem S) (acc : ℝ) (s : LoopState S) :
    Report P acc s 1 (pass P acc s) := by
  constructor
  · exact le_refl _
  · exact le_refl _
  · exact ⟨s.stateIn, s.mix, pushBounded 4 s.hist (P.rhs s.stateIn, s.stateIn), rfl, rfl⟩
  · intro _; rfl
  · intro h; exact (adapt_bounds _ _ _ h).1
  · intro h; exact (adapt_bounds _ _ _ h).2
  · simp [pass]
  · intro h x hx
    simp [pass] at hx
    exact h x hx

theorem loop_report (P : Problem S) (acc : ℝ) (k : ℕ) (s : LoopState S) :
    Report P acc s (k + 1) (loop P acc k s) := by
  induction k generalizing s with
  | zero => exact pass_report P acc s
  | succ k ih =>
    rw [loop]
    have hp := pass_report P acc s
    have hit : (pass P acc s).1.iteration = s.iteration + 1 := rfl
    by_cases hc : (pass P acc s).2 = true
    · simp only [hc, if_true]
      exact { hp with
        most := by have := hp.most; omega
        exhausted := fun h => by rw [hc] at h; cases h }
    · have hc' : (pass P acc s).2 = false := by simpa using hc
      simp only [hc', Bool.false_eq_true, if_false]
      have h := ih (pass P acc s).1
      constructor
      · have := h.least; omega
      · have := h.most; omega
      · exact h.flag
      · intro hh; have := h.exhausted hh; omega
      · intro hm; exact h.mixLow (hp.mixLow hm)
      · intro hm; exact le_trans (h.mixHigh (hp.mixLow hm)) (hp.mixHigh hm)
      · exact h.savedLast
      · intro hs
        apply h.savedOthers
        intro x hx
        have : (pass P acc s).1.saved = s.saved ++ [⟨s.iteration % 5, (pass P acc s).1.stateIn, (pass P acc s).2⟩] := rfl
        rw [this, List.mem_append, List.mem_singleton] at hx
        rcases hx with hx | hx
        · exact hs x hx
        · rw [hx]; exact hc'

/-- **C55**.  For every right-hand side, update rule, deviation measure, accuracy and budget: the solver
performs at least one and at most `max(1, Nmax)` iterations; it reports non-convergence only after using
the whole budget; the reported flag is computed from the deviations between the last input and output,
and if those are numbers, convergence means that both are within the accuracy; the mixing factor stays
between its lower bound and its initial value; and the returned state is the one saved last, with the
returned flag, no earlier layer being flagged as converged. -/
theorem c55_report (P : Problem S) (acc : ℝ) (Nmax : ℕ) (mix : ℝ) (hmix : 1 / 100 ≤ mix) (s : S) :
    let r := solve P acc Nmax mix s
    let n := r.1.iteration - 1
    (1 ≤ n ∧ n ≤ max 1 Nmax) ∧ (r.2 = false → n = max 1 Nmax) ∧
    (∃ sIn, r.2 = isConverged acc (P.relV sIn r.1.stateIn) (P.relS sIn r.1.stateIn) ∧
      (P.relV sIn r.1.stateIn ≠ none → P.relS sIn r.1.stateIn ≠ none →
        (r.2 = true ↔ Within acc (P.relV sIn r.1.stateIn) ∧ Within acc (P.relS sIn r.1.stateIn)))) ∧
    (1 / 100 ≤ r.1.mix ∧ r.1.mix ≤ mix) ∧
    r.1.saved.getLast? = some ⟨n % 5, r.1.stateIn, r.2⟩ ∧
    (∀ x ∈ r.1.saved.dropLast, x.converged = false) := by
  intro r n
  have h := loop_report P acc (Nmax - 1) (loopStart mix s)
  have hi : (loopStart mix s).iteration = 1 := rfl
  refine ⟨⟨?_, ?_⟩, ?_, ?_, ⟨h.mixLow hmix, h.mixHigh hmix⟩, h.savedLast, h.savedOthers ?_⟩
  · have := h.least; rw [hi] at this; show 1 ≤ r.1.iteration - 1; change 2 ≤ r.1.iteration at this; omega
  · have := h.most; rw [hi] at this
    show r.1.iteration - 1 ≤ _
    change r.1.iteration ≤ _ at this
    omega
  · intro hf
    have := h.exhausted hf; rw [hi] at this
    show r.1.iteration - 1 = _
    change r.1.iteration = _ at this
    omega
  · obtain ⟨sIn, _, _, _, hflag⟩ := h.flag
    refine ⟨sIn, hflag, fun h1 h2 => ?_⟩
    change r.2 = _ at hflag
    rw [hflag, isConverged_iff]
    constructor
    · rintro ⟨a, b⟩
      exact ⟨a.resolve_left h1, b.resolve_left h2⟩
    · rintro ⟨a, b⟩
      exact ⟨Or.inr a, Or.inr b⟩
  · intro x hx
    simp [loopStart] at hx
    rw [hx]

/-- **C55** through the public entry point: an inadmissible mixing ratio is rejected; otherwise a run from
scratch is the iteration above. -/
theorem c55_entry (P : Problem S) (file : Option (File S)) (s : S) (acc : ℝ) (Nmax : ℕ) (mix : ℝ) (u : Bool) :
    ((1 / 100 ≤ mix ∧ mix ≤ 1 / 2) ∨ mix = 1 →
      parquetSolver P file s acc Nmax true mix u = .ok (.ran s (solve P acc Nmax mix s))) ∧
    (¬ ((1 / 100 ≤ mix ∧ mix ≤ 1 / 2) ∨ mix = 1) →
      parquetSolver P file s acc Nmax true mix u = .error .assertion) := by
  constructor
  · intro h
    unfold parquetSolver
    rw [if_neg (not_not.mpr h), if_pos rfl]
  · intro h
    unfold parquetSolver
    rw [if_pos h]

/-- **C56** is false: if the deviations are NaN (for example because a state contains NaN), the first
iteration already reports convergence. -/
theorem c56_nan_refuted :
    ∃ P : Problem ℝ, (∀ s acc Nmax mix, (solve P acc Nmax mix s).2 = true) ∧ ∀ x y, P.relV x y = none ∧ P.relS x y = none := by
  refine ⟨⟨fun x => x, fun _ _ => 0, fun _ _ => none, fun _ _ => none⟩, ?_, fun _ _ => ⟨rfl, rfl⟩⟩
  intro s acc Nmax mix
  unfold solve
  cases Nmax - 1 with
  | zero => simp [loop, pass, isConverged, flt]
  | succ k => simp [loop, pass, isConverged, flt]

/-- **C56** (what holds): a NaN in one deviation alone is not reported as converged if the other deviation
exceeds the accuracy; and without NaN a deviation above the accuracy never is. -/
theorem c56_partial (acc : ℝ) (dv ds : Option ℝ) (h : (∃ x, dv = some x ∧ acc < x) ∨ (∃ x, ds = some x ∧ acc < x)) :
    isConverged acc dv ds = false := by
  unfold isConverged
  rcases h with h | h
  · rw [(flt_some_left acc dv).mpr h]; rfl
  · rw [(flt_some_left acc ds).mpr h]; simp

/-- **C57** (what holds).  Without overwriting: a converged file is loaded; with the option to use the last
state, a non-converged file whose last layer is not layer zero is loaded and returned; without that
option a non-converged file is continued from its last layer; and without a file the solver starts
afresh from its input. -/
theorem c57_partial (P : Problem S) (s : S) (acc : ℝ) (Nmax : ℕ) (mix : ℝ)
    (hm : (1 / 100 ≤ mix ∧ mix ≤ 1 / 2) ∨ mix = 1) :
    (∀ (f : File S) u x, f.converged = true → f.read f.last = some x →
      parquetSolver P (some f) s acc Nmax false mix u = .ok (.loaded x false)) ∧
    (∀ (f : File S) x, f.converged = false → f.last ≠ 0 → f.read f.last = some x →
      parquetSolver P (some f) s acc Nmax false mix true = .ok (.loaded x false)) ∧
    (∀ (f : File S) x, f.converged = false → 0 ≤ f.last → f.read f.last = some x →
      parquetSolver P (some f) s acc Nmax false mix false = .ok (.ran x (solve P acc Nmax mix x))) ∧
    parquetSolver P none s acc Nmax false mix false = .ok (.ran s (solve P acc Nmax mix s)) := by
  refine ⟨?_, ?_, ?_, ?_⟩
  · intro f u x hc hx
    unfold parquetSolver; rw [if_neg (not_not.mpr hm)]; simp [hc, readLayer, hx]
  · intro f x hc h0 hx
    unfold parquetSolver; rw [if_neg (not_not.mpr hm)]; simp [hc, h0, readLayer, hx]
  · intro f x hc h0 hx
    unfold parquetSolver; rw [if_neg (not_not.mpr hm)]; simp [hc, h0, readLayer, hx]
  · unfold parquetSolver; rw [if_neg (not_not.mpr hm)]; simp

/-- **C57** is false in three ways: with the option to use the last state a missing file raises an exception
instead of starting afresh; a file whose last layer is layer 0 is not returned but iterated further; and
a converged result that was loaded is reported as not converged. -/
theorem c57_refuted :
    (∀ (P : Problem S) s acc Nmax, parquetSolver P none s acc Nmax false 1 true = .error .exception) ∧
    (∀ (P : Problem S) s acc Nmax (f : File S) x, f.converged = false → f.last = 0 → f.read 0 = some x →
      parquetSolver P (some f) s acc Nmax false 1 true = .ok (.ran x (solve P acc Nmax 1 x))) ∧
    (∀ (P : Problem S) s acc Nmax u (f : File S) x, f.converged = true → f.read f.last = some x →
      ∃ y, parquetSolver P (some f) s acc Nmax false 1 u = .ok (.loaded y false)) := by
  refine ⟨?_, ?_, ?_⟩
  · intro P s acc Nmax
    simp [parquetSolver, readLayer]
  · intro P s acc Nmax f x hc h0 hx
    simp [parquetSolver, hc, h0, readLayer, hx]
  · intro P s acc Nmax u f x hc hx
    exact ⟨x, by simp [parquetSolver, hc, readLayer, hx]⟩

/-- **C58** (plain mixing).  If the damped iteration reports convergence of a quantity measured by an absolutely
homogeneous size `N` (self-energy or vertex), then the un-damped residual of the last input is at most
the accuracy divided by the mixing factor, times the size of the iterate. -/
theorem c58_residual {V : Type} [AddCommGroup V] [Module ℝ V] (f : V → V) (N : V → ℝ)
    (hom : ∀ (c : ℝ) x, N (c • x) = |c| * N x) (ratio acc : ℝ) (hr : 0 < ratio) (x : V)
    (hpos : 0 < N (ratio • f x + (1 - ratio) • x))
    (hconv : N (x - (ratio • f x + (1 - ratio) • x)) / N (ratio • f x + (1 - ratio) • x) ≤ acc) :
    N (x - f x) ≤ acc / ratio * N (ratio • f x + (1 - ratio) • x) := by
  have e : x - (ratio • f x + (1 - ratio) • x) = ratio • (x - f x) := by module
  rw [e, hom, abs_of_pos hr, div_le_iff₀ hpos] at hconv
  have : N (x - f x) ≤ acc * N (ratio • f x + (1 - ratio) • x) / ratio := by
    rw [le_div_iff₀ hr]; linarith
  calc _ ≤ _ := this
    _ = _ := by ring

/-- **C58** at the level of the solver: with plain mixing and relative deviations `N(in − out)/N(out)`, a
reported convergence bounds the residual of the last input. -/
theorem c58_solver_partial {V : Type} [AddCommGroup V] [Module ℝ V] (f : V → V) (N : V → ℝ)
    (hom : ∀ (c : ℝ) x, N (c • x) = |c| * N x) (ratio acc : ℝ) (hr : 0 < ratio) (k : ℕ) (s₀ : LoopState V)
    (P : Problem V) (hP : P.rhs = f) (hU : P.upd = plainMixing ratio)
    (hV : ∀ x y, P.relV x y = some (N (x - y) / N y)) (hconv : (loop P acc k s₀).2 = true)
    (hpos : 0 < N (loop P acc k s₀).1.stateIn) :
    ∃ x, (loop P acc k s₀).1.stateIn = ratio • f x + (1 - ratio) • x ∧
      N (x - f x) ≤ acc / ratio * N (loop P acc k s₀).1.stateIn := by
  have key : ∀ (k : ℕ) (s : LoopState V), ∃ x, (loop P acc k s).1.stateIn = ratio • f x + (1 - ratio) • x ∧
      (loop P acc k s).2 = isConverged acc (P.relV x (loop P acc k s).1.stateIn) (P.relS x (loop P acc k s).1.stateIn) := by
    have hpass : ∀ s : LoopState V, (pass P acc s).1.stateIn = ratio • f s.stateIn + (1 - ratio) • s.stateIn := by
      intro s
      simp only [pass, hU, plainMixing, hP]
      have : (pushBounded 4 s.hist (f s.stateIn, s.stateIn)).getLast? = some (f s.stateIn, s.stateIn) := by
        unfold pushBounded
        simp only
        split
        · rename_i hl
          rw [List.getLast?_drop]
          rw [if_neg (by omega)]
          simp
        · simp
      rw [this]
    intro k
    induction k with
    | zero => intro s; exact ⟨s.stateIn, hpass s, rfl⟩
    | succ k ih =>
      intro s
      rw [loop]
      by_cases hc : (pass P acc s).2 = true
      · simp only [hc, if_true]
        exact ⟨s.stateIn, hpass s, hc.symm.trans rfl⟩
      · simp only [hc, Bool.false_eq_true, if_false]
        exact ih _
  obtain ⟨x, hx, hflag⟩ := key k s₀
  refine ⟨x, hx, ?_⟩
  rw [hconv] at hflag
  have h1 := ((isConverged_iff _ _ _).mp hflag.symm).1
  rw [hV] at h1
  have h2 : N (x - (loop P acc k s₀).1.stateIn) / N (loop P acc k s₀).1.stateIn ≤ acc := by
    rcases h1 with h1 | ⟨y, hy, hle⟩
    · cases h1
    · simp only [Option.some.injEq] at hy
      rw [hy]; exact hle
  rw [hx] at h2 hpos ⊢
  exact c58_residual f N hom ratio acc hr x hpos h2

/-- The map of the stagnation example: it has no fixed point nearby; `0 ↦ 1`, `1 ↦ 2 + i`. -/
noncomputable def stagMap (x : ℂ) : ℂ := if x = 0 then 1 else x + 1 + Complex.I

/-- The deviation measure of the example. -/
noncomputable def relDev (x y : ℂ) : Option ℝ := some (‖x - y‖ / ‖y‖)

/-- **C58** is false of the accelerated iteration (the default): the accelerated iterate can equal the input
although the input is far from a fixed point, and the deviation zero is then reported as convergence.
Here the self-energy has one complex entry, the least-squares problems are solved exactly, the solver
reports convergence after two iterations at state 1, and the residual is as large as `|1 + i|`. -/
theorem c58_acceleration_refuted :
    ∃ gam : List (ℂ × ℂ) → ℕ → ℝ,
      Anderson.NormalEquations 1 (fun i => if i = 0 then stagMap 0 - 0 else stagMap 1 - 1)
        (gam [(stagMap 0, 0), (stagMap 1, 1)]) ∧
      let r := solve ⟨stagMap, accelerated gam, relDev, relDev⟩ (1 / 10 ^ 6) 50 1 0
      r.2 = true ∧ r.1.iteration = 3 ∧ r.1.stateIn = 1 ∧ stagMap 1 - 1 = 1 + Complex.I := by
  have f0 : stagMap 0 = 1 := by simp [stagMap]
  have f1 : stagMap 1 = 2 + Complex.I := by simp [stagMap]; ring
  refine ⟨fun _ _ => 0, ?_, ?_⟩
  · intro j hj
    interval_cases j
    rw [f0, f1]
    simp [Complex.inner]
    ring
  · intro r
    have p1 : pass ⟨stagMap, accelerated (fun _ _ => 0), relDev, relDev⟩ (1 / 10 ^ 6) (loopStart 1 (0:ℂ)) =
        (⟨1, [(1, 0)], [some 1], 1, 2, [⟨0, 0, false⟩, ⟨1, 1, false⟩]⟩, false) := by
      have ho : accelerated (fun _ _ => 0) [((1:ℂ), (0:ℂ))] 1 = 1 := by
        simp [accelerated, Anderson.update, Anderson.accumulate, Anderson.term, Anderson.alpha]
      have h1 : relDev 0 1 = some 1 := by simp [relDev]
      have hm : fmax (some 1) (some 1) = some 1 := by simp [fmax]
      have hc : isConverged (1 / 10 ^ 6) (some 1) (some 1) = false := by
        apply c56_partial; left; exact ⟨1, rfl, by norm_num⟩
      simp only [pass, loopStart, f0, pushBounded, List.nil_append, List.length_singleton]
      norm_num [ho, h1, hm, adapt]
      norm_num at hc
      exact hc
    have p2 : pass ⟨stagMap, accelerated (fun _ _ => 0), relDev, relDev⟩ (1 / 10 ^ 6)
        ⟨(1:ℂ), [(1, 0)], [some 1], 1, 2, [⟨0, 0, false⟩, ⟨1, 1, false⟩]⟩ =
        (⟨1, [(1, 0), (2 + Complex.I, 1)], [some 1, some 0], 1, 3,
          [⟨0, 0, false⟩, ⟨1, 1, false⟩, ⟨2, 1, true⟩]⟩, true) := by
      have ho : accelerated (fun _ _ => 0) [((1:ℂ), (0:ℂ)), (2 + Complex.I, 1)] 1 = 1 := by
        simp [accelerated, Anderson.update, Anderson.accumulate, Anderson.term, Anderson.alpha]
      have h1 : relDev 1 1 = some 0 := by simp [relDev]
      have hm : fmax (some 0) (some 0) = some 0 := by simp [fmax]
      have hc : isConverged (1 / 10 ^ 6) (some 0) (some 0) = true := by
        rw [isConverged_iff]
        exact ⟨Or.inr ⟨0, rfl, by norm_num⟩, Or.inr ⟨0, rfl, by norm_num⟩⟩
      simp only [pass, f1, pushBounded, List.singleton_append, List.length_cons, List.length_nil]
      norm_num [ho, h1, hm, adapt]
      norm_num at hc
      exact hc
    have hr : r = (⟨1, [(1, 0), (2 + Complex.I, 1)], [some 1, some 0], 1, 3,
          [⟨0, 0, false⟩, ⟨1, 1, false⟩, ⟨2, 1, true⟩]⟩, true) := by
      show loop _ _ 49 _ = _
      rw [loop, p1]
      simp only [Bool.false_eq_true, if_false]
      rw [loop, p2]
      simp
    rw [hr]
    exact ⟨rfl, rfl, rfl, by rw [f1]; ring⟩

/-- The solver runs several iterations: halving towards zero measured absolutely. -/
example : (solve (S := ℝ) ⟨fun x => x / 2, plainMixing 1, fun x y => some |x - y|, fun x y => some |x - y|⟩
    (1 / 100) 3 1 1).1.iteration = 4 := by
  have h := (c55_report (S := ℝ) ⟨fun x => x / 2, plainMixing 1, fun x y => some |x - y|, fun x y => some |x - y|⟩
    (1 / 100) 3 1 (by norm_num) 1)
  have h2 : (solve (S := ℝ) ⟨fun x => x / 2, plainMixing 1, fun x y => some |x - y|, fun x y => some |x - y|⟩
    (1 / 100) 3 1 1).2 = false := by
    norm_num [solve, loop, pass, loopStart, pushBounded, plainMixing, isConverged, flt, fmax, abs_of_nonneg]
  have h3 := h.2.1 h2
  have h4 := h.1
  omega

end Verif.Parquet
