import Verif.Minimizer.Props
import Mathlib.Tactic.NormNum

/-
C62: the other ways in which the bracketing ends, and the exact steps of the search.
-/
namespace Verif.Minimizer

/-- The start values are exactly half, once and twice the present scale. -/
theorem c62_start_values (s : ℝ) : (start s).a = s / 2 ∧ (start s).m = s ∧ (start s).b = 2 * s :=
  ⟨rfl, rfl, by simp [start, mul_comm]⟩

/-- **C62** (giving up). The search returns without minimising only if the costs at the ends are equal, the cost in the
middle differs from them by less than `1e-10` and is not lower, and the cost half way to the lower end is not
lower either. -/
theorem c62_gives_up (c : ℝ → ℝ) (t t' : Tri) :
    mstep (total c) t = .giveUp t' ↔
      t' = t ∧ c t.a = c t.b ∧ c t.a ≤ c t.m ∧ c t.m - c t.a < 1 / 10 ^ 10 ∧ c t.a ≤ c ((t.a + t.m) / 2) := by
  simp only [mstep, total, flt, fclose, Bool.and_eq_true, decide_eq_true_eq]
  split_ifs with h1 h2 h3 h4 h5 h6 h7
  · simp only [reduceCtorEq, false_iff, not_and]
    intro _ _ h; linarith [h1.1]
  · simp only [reduceCtorEq, false_iff, not_and]
    intro _ h; linarith
  · simp only [reduceCtorEq, false_iff, not_and]
    intro _ h; linarith
  · simp only [reduceCtorEq, false_iff, not_and]
    intro _ _ _ _; linarith
  · have e : c t.a = c t.b := le_antisymm (not_lt.mp h3) (not_lt.mp h2)
    have hm : c t.a ≤ c t.m := by
      by_contra h; push Not at h
      exact h1 ⟨h, e ▸ h⟩
    rw [abs_lt] at h4
    simp only [Outcome.giveUp.injEq]
    exact ⟨fun h => ⟨h.symm, e, hm, by linarith, not_lt.mp h5⟩, fun h => h.1.symm⟩
  · exfalso
    have e : c t.a = c t.b := le_antisymm (not_lt.mp h3) (not_lt.mp h2)
    exact h4 (e ▸ h6)
  · exfalso
    have e : c t.a = c t.b := le_antisymm (not_lt.mp h3) (not_lt.mp h2)
    exact h4 (e ▸ h6)
  · simp only [reduceCtorEq, false_iff, not_and]
    intro _ _ h h'
    exfalso
    apply h4
    rw [abs_lt]
    constructor <;> linarith

/-- **C62** (exception). With finite costs the search throws exactly if the costs at the ends are equal and the cost in the
middle is higher by at least `1e-10`. -/
theorem c62_exception (c : ℝ → ℝ) (t : Tri) :
    mstep (total c) t = .throws ↔ c t.a = c t.b ∧ c t.a + 1 / 10 ^ 10 ≤ c t.m := by
  simp only [mstep, total, flt, fclose, Bool.and_eq_true, decide_eq_true_eq]
  split_ifs with h1 h2 h3 h4 h5 h6 h7
  · simp only [reduceCtorEq, false_iff, not_and]
    intro _ h; norm_num at h; linarith [h1.1]
  · simp only [reduceCtorEq, false_iff, not_and]
    intro h; linarith
  · simp only [reduceCtorEq, false_iff, not_and]
    intro h; linarith
  · simp only [reduceCtorEq, false_iff, not_and]
    intro _ h
    rw [abs_lt] at h4; linarith
  · simp only [reduceCtorEq, false_iff, not_and]
    intro _ h
    rw [abs_lt] at h4; linarith
  · exfalso
    have e : c t.a = c t.b := le_antisymm (not_lt.mp h3) (not_lt.mp h2)
    exact h4 (e ▸ h6)
  · exfalso
    have e : c t.a = c t.b := le_antisymm (not_lt.mp h3) (not_lt.mp h2)
    exact h4 (e ▸ h6)
  · have e : c t.a = c t.b := le_antisymm (not_lt.mp h3) (not_lt.mp h2)
    simp only [true_iff]
    refine ⟨e, ?_⟩
    have hm : c t.a ≤ c t.m := by
      by_contra h; push Not at h
      exact h1 ⟨h, e ▸ h⟩
    by_contra h; push Not at h
    apply h4
    rw [abs_lt]
    constructor <;> [linarith; (norm_num at h ⊢; linarith)]

/-- **C62** (search steps). The end with the lower cost decides the direction: the bracket moves to half the lower end
or to one and a half times the upper end; with equal ends and a nearly equal middle the point half way is tried. -/
theorem c62_moves (c : ℝ → ℝ) (t t' : Tri) (h : mstep (total c) t = .next t') :
    (c t.a < c t.b ∧ t' = ⟨t.a / 2, t.a, t.m⟩) ∨ (c t.b < c t.a ∧ t' = ⟨t.m, t.b, 3 / 2 * t.b⟩) ∨
      (c t.a = c t.b ∧ c ((t.a + t.m) / 2) < c t.a ∧ t' = ⟨t.a, (t.a + t.m) / 2, t.m⟩) := by
  simp only [mstep, total, flt, fclose, Bool.and_eq_true, decide_eq_true_eq] at h
  split_ifs at h with h1 h2 h3 h4 h5 h6 h7
  · cases h; exact .inl ⟨h2, rfl⟩
  · cases h
    refine .inr (.inl ⟨h3, ?_⟩)
    norm_num [mul_comm]
  · cases h
    exact .inr (.inr ⟨le_antisymm (not_lt.mp h3) (not_lt.mp h2), h5, rfl⟩)
  · exfalso
    have e : c t.a = c t.b := le_antisymm (not_lt.mp h3) (not_lt.mp h2)
    exact h4 (e ▸ h6)

/-- A constant cost makes the search give up; a cost with a bump in the middle makes it throw. -/
example : mstep (total fun _ => 1) (start 1) = .giveUp (start 1) := by
  rw [c62_gives_up]; norm_num

example : mstep (total fun x => if x = 1 then 1 else 0) (start 1) = .throws := by
  rw [c62_exception]; norm_num [start]

end Verif.Minimizer
