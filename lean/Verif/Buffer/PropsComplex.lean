import Verif.Buffer.PropsRough
import Mathlib.Tactic.NormNum.GCD

/-! C124: cancellation in the measures of roughness. -/
namespace Verif.Buffer
open Verif Verif.Index Verif.MultiArray Verif.FinDiff

/-- Complex data on a `3 × 3` grid. -/
def cancel : MArr ℂ := ⟨[3, 3], [3, 1], [0, 0, 0, 0, 0, ⟨0, -2⟩, 0, 0, 1]⟩

theorem cancel_wf : cancel.WF := ⟨by simp [cancel], by simp [cancel], by simp [cancel, cumulLength]⟩

theorem cancel_d0 : partialDerivArr ℝ cancel 0
    = .ok ⟨[3, 3], [3, 1], [0, 0, ⟨-1/2, -4⟩, 0, 0, ⟨1/2, 0⟩, 0, 0, ⟨3/2, 4⟩]⟩ := by
  rw [partialDerivArr_eq cancel cancel_wf 0 (by simp [cancel]) (by simp [cancel]) (by simp [cancel])]
  congr 2
  simp only [cancel, List.prod_cons, List.prod_nil, List.drop, List.take, List.range, List.range.loop, List.map]
  simp [colVal, Complex.ext_iff]
  norm_num

theorem cancel_d1 : partialDerivArr ℝ cancel 1
    = .ok ⟨[3, 3], [3, 1], [0, 0, 0, 0, ⟨0, -1⟩, 0, ⟨0, 1⟩, ⟨1/2, 0⟩, ⟨3/2, 0⟩]⟩ := by
  rw [partialDerivArr_eq cancel cancel_wf 1 (by simp [cancel]) (by simp [cancel]) (by simp [cancel])]
  congr 2
  simp only [cancel, List.prod_cons, List.prod_nil, List.drop, List.take, List.range, List.range.loop, List.map]
  simp [colVal, Complex.ext_iff]

theorem norm_le_of {z : ℂ} {r : ℝ} (hr : 0 ≤ r) (h : z.re ^ 2 + z.im ^ 2 ≤ r ^ 2) : ‖z‖ ≤ r := by
  apply le_of_sq_le_sq _ hr
  rw [Complex.sq_norm, Complex.normSq_apply]
  nlinarith

theorem cancel_max : IsGreatest {x | ∃ z ∈ cancel.elems, x = ‖z‖} 2 := by
  constructor
  · refine ⟨⟨0, -2⟩, by simp [cancel], ?_⟩
    have : (⟨0, -2⟩ : ℂ) = ((-2 : ℝ) : ℂ) * Complex.I := by simp [Complex.ext_iff]
    rw [this, norm_mul, Complex.norm_real, Complex.norm_I]; norm_num
  · rintro x ⟨z, hz, rfl⟩
    apply norm_le_of (by norm_num)
    simp only [cancel, List.mem_cons, List.not_mem_nil, or_false] at hz
    rcases hz with rfl | rfl | rfl | rfl | rfl | rfl | rfl | rfl | rfl <;> norm_num

theorem maxNorm_eq {l : List ℂ} {k : ℝ} (h : IsGreatest {x | ∃ z ∈ l, x = ‖z‖} k) : maxNorm l = k := by
  obtain ⟨z, hz, -⟩ := h.1
  exact (maxNorm_isGreatest (List.ne_nil_of_mem hz)).unique h

/-- **C124** is false for complex data of two frequencies: the squares of the derivatives are added as complex
numbers, so that slopes of different phase cancel, and the measure can be smaller than the squared slope along
one axis alone. -/
theorem c124_complex_refuted :
    ∃ (data d : MArr ℂ) (m : ℝ), data.WF ∧ (∀ i < 2, 2 < data.len.getD i 0) ∧
      IsGreatest {x | ∃ z ∈ data.elems, x = ‖z‖} 2 ∧ partialDerivArr ℝ data 0 = .ok d ∧
      derivMax data 0 2 = .ok (some m) ∧ ∃ z ∈ d.elems, m < (‖z‖ / 2) ^ 2 := by
  have hk := maxNorm_eq cancel_max
  refine ⟨cancel, _, maxNorm [0, 0, ⟨-63/16, 1⟩, 0, ⟨-1/4, 0⟩, ⟨1/16, 0⟩, ⟨-1/4, 0⟩, ⟨1/16, 0⟩, ⟨-23/8, 3⟩],
    cancel_wf, ?_, cancel_max, cancel_d0, ?_, ?_⟩
  · intro i hi
    interval_cases i <;> simp [cancel]
  · unfold derivMax
    rw [hk]
    simp only [List.range, List.range.loop, List.mapM_cons, List.mapM_nil, Nat.zero_add, cancel_d0, cancel_d1,
      bind, Except.bind, pure, Except.pure]
    rw [if_neg (by norm_num)]
    congr 2
    congr 1
    simp only [cancel, List.map, List.foldl, addSquares, List.zipWith]
    simp [Complex.ext_iff]
    norm_num
  · refine ⟨⟨3/2, 4⟩, by simp, ?_⟩
    have h1 : (‖(⟨3/2, 4⟩ : ℂ)‖ / 2) ^ 2 = 73 / 16 := by
      rw [div_pow, Complex.sq_norm, Complex.normSq_mk]; norm_num
    rw [h1]
    obtain ⟨z, hz, e⟩ := (maxNorm_isGreatest (l := [0, 0, ⟨-63/16, 1⟩, 0, ⟨-1/4, 0⟩, ⟨1/16, 0⟩, ⟨-1/4, 0⟩, ⟨1/16, 0⟩, ⟨-23/8, 3⟩]) (by simp)).1
    rw [e]
    refine lt_of_le_of_lt (b := 43 / 10) (norm_le_of (by norm_num) ?_) (by norm_num)
    simp only [List.mem_cons, List.not_mem_nil, or_false] at hz
    rcases hz with rfl | rfl | rfl | rfl | rfl | rfl | rfl | rfl | rfl <;> norm_num

/-- The hypotheses of the theorems on real data are met by the entry-wise real data of a `3 × 3` grid. -/
example : ∃ data : MArr ℂ, data.WF ∧ (∀ i < 2, 2 < data.len.getD (0 + i) 0) ∧
    (∀ z ∈ data.elems, z.im = 0) ∧ ∃ z ∈ data.elems, z ≠ 0 := by
  refine ⟨⟨[3, 3], [3, 1], [0, 1, 0, 0, 0, 2, 0, 0, 1]⟩, ⟨by simp, by simp, by simp [cumulLength]⟩, ?_, ?_, 1, by simp, by simp⟩
  · intro i hi
    interval_cases i <;> simp
  · intro z hz
    simp only [List.mem_cons, List.not_mem_nil, or_false] at hz
    rcases hz with rfl | rfl | rfl | rfl | rfl | rfl | rfl | rfl | rfl <;> simp

end Verif.Buffer
