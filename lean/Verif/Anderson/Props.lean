import Verif.Anderson.Model
import Mathlib.Algebra.BigOperators.Fin
import Mathlib.Algebra.BigOperators.Module
import Mathlib.Analysis.InnerProductSpace.Basic
import Mathlib.Analysis.InnerProductSpace.PiL2
import Mathlib.Tactic.Module
import Mathlib.Tactic.Linarith
import Mathlib.Tactic.NormNum

/-! C59: Anderson acceleration. -/
namespace Verif.Anderson

open Finset

variable {V W : Type} [AddCommGroup V] [Module ℝ V] [AddCommGroup W] [Module ℝ W]

theorem accumulate_eq (zeta : ℝ) (al : ℕ → ℝ) (ps : List (V × V)) (i : ℕ) (acc : V) :
    accumulate zeta al i ps acc = acc + ∑ j : Fin ps.length, term zeta (al (i + j)) ps[j] := by
  induction ps generalizing i acc with
  | nil => simp [accumulate]
  | cons p ps ih =>
    rw [accumulate, ih]
    simp only [List.length_cons]
    rw [Fin.sum_univ_succ]
    simp only [Fin.val_zero, Nat.add_zero, Fin.val_succ]
    rw [add_assoc]
    congr 2
    refine Finset.sum_congr rfl fun j _ => ?_
    have : i + 1 + (j : ℕ) = i + ((j : ℕ) + 1) := by omega
    rw [this]; rfl

/-- The accelerated iterate as a weighted sum over the history. -/
theorem update_eq (hist : List (V × V)) (hne : hist ≠ []) (zeta : ℝ) (gamma : ℕ → ℝ) :
    update hist zeta gamma =
      .ok (∑ i : Fin hist.length, alpha hist.length gamma i • (zeta • (hist[i]).1 + (1 - zeta) • (hist[i]).2)) := by
  cases hist with
  | nil => exact absurd rfl hne
  | cons p ps =>
    simp only [update]
    rw [accumulate_eq]
    congr 1
    simp only [List.length_cons]
    rw [Fin.sum_univ_succ]
    congr 1
    refine Finset.sum_congr rfl fun j _ => ?_
    have : 1 + (j : ℕ) = (j : ℕ) + 1 := by omega
    rw [this]; rfl

/-- Summation by parts for the coefficients, for every function on the history. -/
theorem sum_alpha_smul {E : Type} [AddCommGroup E] [Module ℝ E] (m : ℕ) (gamma : ℕ → ℝ) (x : ℕ → E) :
    ∑ i ∈ range (m + 1), alpha (m + 1) gamma i • x i =
      x 0 + ∑ j ∈ range m, gamma j • (x (j + 1) - x j) := by
  cases m with
  | zero => simp [alpha]
  | succ k =>
    have h1 : ∑ i ∈ range (k + 1 + 1), alpha (k + 1 + 1) gamma i • x i =
        (∑ i ∈ range (k + 1), alpha (k + 1 + 1) gamma i • x i) + gamma k • x (k + 1) := by
      rw [sum_range_succ]
      congr 1
      simp [alpha]
    rw [h1]
    have h2 : ∀ n ≤ k, ∑ i ∈ range (n + 1), alpha (k + 1 + 1) gamma i • x i + gamma n • x (n + 1) =
        x 0 + ∑ j ∈ range (n + 1), gamma j • (x (j + 1) - x j) := by
      intro n hn
      induction n with
      | zero =>
        simp only [sum_range_succ, range_zero, sum_empty, zero_add]
        have : alpha (k + 1 + 1) gamma 0 = 1 - gamma 0 := by simp [alpha]
        rw [this]; module
      | succ n ih =>
        rw [sum_range_succ, sum_range_succ (fun j => gamma j • (x (j + 1) - x j)), ← add_assoc, ← ih (by omega)]
        have : alpha (k + 1 + 1) gamma (n + 1) = gamma n - gamma (n + 1) := by
          simp [alpha]; omega
        rw [this]; module
    exact h2 k le_rfl

/-- **C59** (affine combination).  For every history length and every least-squares outcome the
coefficients sum to one. -/
theorem c59_sum_one (m : ℕ) (hm : 0 < m) (gamma : ℕ → ℝ) : ∑ i ∈ range m, alpha m gamma i = 1 := by
  obtain ⟨k, rfl⟩ : ∃ k, m = k + 1 := ⟨m - 1, by omega⟩
  have := sum_alpha_smul (E := ℝ) k gamma (fun _ => 1)
  simpa using this

/-- **C59** (shared quantities).  Every linear quantity (such as the bare vertex) that has the same value in
all evaluations and iterates of the history has that value in the accelerated iterate, for every
least-squares outcome and every mixing factor. -/
theorem c59_preserves (hist : List (V × V)) (hne : hist ≠ []) (zeta : ℝ) (gamma : ℕ → ℝ) (φ : V →ₗ[ℝ] W) (c : W)
    (h : ∀ p ∈ hist, φ p.1 = c ∧ φ p.2 = c) :
    ∃ x, update hist zeta gamma = .ok x ∧ φ x = c := by
  refine ⟨_, update_eq hist hne zeta gamma, ?_⟩
  rw [map_sum]
  have e : ∀ i : Fin hist.length, φ (alpha hist.length gamma i • (zeta • (hist[i]).1 + (1 - zeta) • (hist[i]).2)) =
      alpha hist.length gamma i • c := by
    intro i
    obtain ⟨h1, h2⟩ := h hist[i] (List.getElem_mem _)
    rw [map_smul, map_add, map_smul, map_smul, h1, h2]
    module
  simp only [e]
  rw [← Finset.sum_smul, Fin.sum_univ_eq_sum_range (fun i => alpha hist.length gamma i),
    c59_sum_one _ (List.length_pos_iff.mpr hne), one_smul]

/-- **C59** (fixed points).  If every history entry is the same fixed point, so is the result. -/
theorem c59_fixed_point (hist : List (V × V)) (hne : hist ≠ []) (zeta : ℝ) (gamma : ℕ → ℝ) (x : V)
    (h : ∀ p ∈ hist, p.1 = x ∧ p.2 = x) : update hist zeta gamma = .ok x := by
  obtain ⟨y, hy, h'⟩ := c59_preserves hist hne zeta gamma (LinearMap.id : V →ₗ[ℝ] V) x h
  simp only [LinearMap.id_coe, id_eq] at h'
  rw [hy, h']

/-- **C59** (one entry): with a single entry the update is plain mixing; an empty history is rejected. -/
theorem c59_single (r s : V) (zeta : ℝ) (gamma : ℕ → ℝ) :
    update [(r, s)] zeta gamma = .ok (zeta • r + (1 - zeta) • s) ∧
    update ([] : List (V × V)) zeta gamma = .error .exception := by
  constructor
  · simp [update, accumulate, term, alpha]
  · rfl

/-- The normal equations of the least-squares problem solved by `ordinary_least_squares`
(anderson_acceleration.hpp:37-42): the residual `y - A gamma`, with `y = -e₀` and the columns
`e_{j+1} - e_j`, is orthogonal to every column in the real inner product (the real part of the complex
one). -/
def NormalEquations {E : Type} [NormedAddCommGroup E] [InnerProductSpace ℝ E] (m : ℕ) (e : ℕ → E) (gamma : ℕ → ℝ) : Prop :=
  ∀ j < m, inner ℝ (e (j + 1) - e j) (-e 0 - ∑ i ∈ range m, gamma i • (e (i + 1) - e i)) = 0

/-- **C59** (optimality).  If the least-squares problem is solved, the coefficients minimise the size of the
combined self-energy error among all real coefficients that sum to one. -/
theorem c59_optimal {E : Type} [NormedAddCommGroup E] [InnerProductSpace ℝ E] (m : ℕ) (e : ℕ → E) (gamma : ℕ → ℝ)
    (hN : NormalEquations m e gamma) (β : ℕ → ℝ) (hβ : ∑ i ∈ range (m + 1), β i = 1) :
    ‖∑ i ∈ range (m + 1), alpha (m + 1) gamma i • e i‖ ≤ ‖∑ i ∈ range (m + 1), β i • e i‖ := by
  -- β as a combination of differences: partial sums
  have key : ∀ n, ∑ i ∈ range (n + 1), β i • e i =
      (∑ i ∈ range (n + 1), β i) • e 0 +
        ∑ j ∈ range n, (∑ i ∈ range (n + 1), β i - ∑ i ∈ range (j + 1), β i) • (e (j + 1) - e j) := by
    intro n
    induction n with
    | zero => simp
    | succ n ih =>
      have e1 : ∑ j ∈ range (n + 1), (∑ i ∈ range (n + 1 + 1), β i - ∑ i ∈ range (j + 1), β i) • (e (j + 1) - e j)
          = ∑ j ∈ range (n + 1), (∑ i ∈ range (n + 1), β i - ∑ i ∈ range (j + 1), β i) • (e (j + 1) - e j)
            + β (n + 1) • ∑ j ∈ range (n + 1), (e (j + 1) - e j) := by
        rw [Finset.smul_sum, ← Finset.sum_add_distrib]
        refine Finset.sum_congr rfl fun j _ => ?_
        rw [sum_range_succ β (n + 1)]; module
      have e2 : ∑ j ∈ range (n + 1), (∑ i ∈ range (n + 1), β i - ∑ i ∈ range (j + 1), β i) • (e (j + 1) - e j)
          = ∑ j ∈ range n, (∑ i ∈ range (n + 1), β i - ∑ i ∈ range (j + 1), β i) • (e (j + 1) - e j) := by
        rw [sum_range_succ]; simp
      rw [sum_range_succ (fun i => β i • e i), ih, e1, e2, Finset.sum_range_sub e, sum_range_succ β (n + 1)]
      module
  have hα := sum_alpha_smul m gamma e
  rw [hα, key m, hβ, one_smul]
  set δ : ℕ → ℝ := fun j => 1 - ∑ i ∈ range (j + 1), β i
  set A : (ℕ → ℝ) → E := fun g => ∑ j ∈ range m, g j • (e (j + 1) - e j) with hA
  show ‖e 0 + A gamma‖ ≤ ‖e 0 + A δ‖
  have split : e 0 + A δ = (e 0 + A gamma) + A (fun j => δ j - gamma j) := by
    simp only [hA, sub_smul, Finset.sum_sub_distrib]; abel
  have orth : inner ℝ (e 0 + A gamma) (A (fun j => δ j - gamma j)) = 0 := by
    simp only [hA]
    rw [inner_sum]
    refine Finset.sum_eq_zero fun j hj => ?_
    rw [inner_smul_right]
    have h := hN j (Finset.mem_range.mp hj)
    have e3 : -e 0 - ∑ i ∈ range m, gamma i • (e (i + 1) - e i) = -(e 0 + ∑ i ∈ range m, gamma i • (e (i + 1) - e i)) := by
      abel
    rw [e3, inner_neg_right, neg_eq_zero, real_inner_comm] at h
    rw [h, mul_zero]
  rw [split]
  have pyth : ‖(e 0 + A gamma) + A (fun j => δ j - gamma j)‖ ^ 2 =
      ‖e 0 + A gamma‖ ^ 2 + ‖A (fun j => δ j - gamma j)‖ ^ 2 := by
    rw [norm_add_sq_real, orth]; ring
  have hle : ‖e 0 + A gamma‖ ^ 2 ≤ ‖(e 0 + A gamma) + A (fun j => δ j - gamma j)‖ ^ 2 := by
    rw [pyth]; linarith [sq_nonneg ‖A (fun j => δ j - gamma j)‖]
  exact le_of_sq_le_sq hle (norm_nonneg _)

/-- The normal equations have solutions: for a linear sequence of errors in one dimension. -/
example : NormalEquations (E := ℝ) 1 (fun i => 2 - (i : ℝ)) (fun _ => 2) := by
  intro j hj
  interval_cases j
  norm_num

end Verif.Anderson
