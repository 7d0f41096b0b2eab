import Verif.FreqGrid.Props

/-! Concrete cases that meet the hypotheses of C22 – C26: the default grid with 5 points on `[-1, 1]`. -/
namespace Verif.FreqGrid
open GridMap

theorem case_valid : (keldyshGrid 1 0 1 5).Valid := keldyshGrid_valid one_pos one_pos 0 (by norm_num)

example : (keldyshGrid 1 0 1 5).freq 0 = -1 ∧ (keldyshGrid 1 0 1 5).freq 4 = 1 := by
  obtain ⟨h1, h2, -⟩ := c22_span_increasing case_valid
  exact ⟨by rw [h1]; simp [keldyshGrid], by
    have : (keldyshGrid 1 0 1 5).n - 1 = 4 := rfl
    rw [this] at h2
    rw [h2]; simp [keldyshGrid]⟩

example : (keldyshGrid 1 0 1 5).freq (5 - 1 - 1) - 0 = -((keldyshGrid 1 0 1 5).freq 1 - 0) :=
  c22_symmetric case_valid rfl 0 (by simp [keldyshGrid]) (by
    intro x
    have := (c21_odd 1 0 x).2.1
    simpa [keldyshGrid] using this) (by show 1 < 5; norm_num)

example : ∃ i : Nat, (keldyshGrid 1 0 1 5).index (1/3) = .ok (i : Int) ∧ (keldyshGrid 1 0 1 5).freq i ≤ 1/3 ∧
    1/3 < (keldyshGrid 1 0 1 5).freq (i + 1) := by
  obtain ⟨i, h, -, -, -, h1, h2⟩ := c23_cell_partial case_valid (w := 1/3) (by simp [keldyshGrid]; norm_num)
    (by simp [keldyshGrid]; norm_num)
  exact ⟨i, h, h1, h2⟩

example : (keldyshGrid 1 0 1 5).index (1/3) ≠ .error .undefined :=
  (c24_inside_partial case_valid (w := 1/3) (by simp [keldyshGrid]; norm_num) (by simp [keldyshGrid]; norm_num)).1

example : (keldyshGrid 1 0 1 5).indexLinear (keldyshGrid 1 0 1 5).upper = 3 := (c23_upper_edge_linear case_valid).1

/-- The squares as a table. -/
example : (locate (fun i => (i : Int) * i) 10 0 8).1 = 3 ∧ (locate (fun i => (i : Int) * i) (-1) 0 8).1 = 0 := by
  have hm : ∀ i j : Nat, i < j → j < 9 → (i : Int) * i < (j : Int) * j := by intro i j h _; nlinarith [Int.ofNat_lt.2 h]
  have h := c26_locate (fun i => (i : Int) * i) 9 (by norm_num) hm 10 (by norm_num) (by norm_num)
  refine ⟨?_, (c26_outside (fun i => (i : Int) * i) 9 (by norm_num) hm (-1)).1 (by norm_num)⟩
  decide +kernel

end Verif.FreqGrid
