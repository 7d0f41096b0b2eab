import Verif.GridSave.Model
import Mathlib.Tactic.NormNum
import Mathlib.Tactic.Linarith
import Mathlib.Tactic.Ring
import Mathlib.Tactic.FieldSimp

/-
C54: restoring a frequency grid from a file.
-/
namespace Verif.GridSave

open Verif.GridMap Verif.FreqGrid

/-- The frequencies of two grids agree. -/
def SameGrid (g h : Params) : Prop := g.n = h.n ∧ ∀ i < g.n, g.grid.freq i = h.grid.freq i

/-- C54 for grids centred at zero with the number of points of the executable: every such grid, whatever its
limits and scale and whatever the value of Λ, is restored. -/
theorem c54_partial (C : Constants) (Λ : ℝ) (g : Params) (hc : g.center = 0)
    (hn : g.n = C.number g.kind g.diagClass) : SameGrid g (restore C Λ (save g)) := by
  refine ⟨by simp [restore, save, construct, hn], ?_⟩
  intro i _
  have : (restore C Λ (save g)).grid = g.grid := by
    simp [restore, save, construct, Params.grid, hc, hn]
  rw [this]

/-- The grids the program constructs, and those with changed limits and scale, meet the hypotheses. -/
example (C : Constants) (Λ u W : ℝ) (k : Kind) (d : Fin 3) :
    SameGrid { construct C k d Λ false with upper := u, lower := -u, scale := W }
      (restore C Λ (save { construct C k d Λ false with upper := u, lower := -u, scale := W })) :=
  c54_partial C Λ _ rfl rfl

/-- The middle of a symmetric grid with three points lies at its centre. -/
theorem middle_of_shifted (k : Kind) (d : Fin 3) (W u c : ℝ) :
    (setCenter ⟨k, d, false, 3, u, -u, 0, W, 1, 0⟩ c).grid.freq 1 = c := by
  have e1 : v2 W c (u + c) = - v2 W c (-u + c) := by
    have h1 : u + c - c = u := by ring
    have h2 : -u + c - c = -u := by ring
    simp only [v2, h1, h2, sgn]
    rw [show (-u) * (-u) = u * u by ring]
    have : ((if -u ≥ 0 then (1:ℝ) else 0) - if -u ≤ 0 then 1 else 0) =
        -((if u ≥ 0 then (1:ℝ) else 0) - if u ≤ 0 then 1 else 0) := by
      simp only [ge_iff_le, Left.nonneg_neg_iff, Left.neg_nonpos_iff]; ring
    rw [this]; ring
  have hu : (u - -u) * (1 / 2) = u := by ring
  simp only [setCenter, Params.grid, Grid.freq, Grid.spacing, hu, Bool.false_eq_true, false_and, ↓reduceIte, e1]
  have : v2 W c (-u + c) + ((1 : ℕ) : ℝ) * ((-v2 W c (-u + c) - v2 W c (-u + c)) / (((3 : ℕ) : ℝ) - 1)) = 0 := by
    push_cast; ring
  rw [this]
  simp [v2Inv]

/-- C54 is false for shifted centres: a grid of three points shifted to the centre 1 has its middle point at 1;
the restored grid does not. -/
theorem c54_shifted_refuted (C : Constants) (hC : C.number .b 0 = 3) (Λ : ℝ) :
    ¬ SameGrid (setCenter ⟨.b, 0, false, 3, 1, -1, 0, 1, 1, 0⟩ 1)
      (restore C Λ (save (setCenter ⟨.b, 0, false, 3, 1, -1, 0, 1, 1, 0⟩ 1))) := by
  rintro ⟨_, h⟩
  have h1 := h 1 (by norm_num [setCenter])
  rw [middle_of_shifted] at h1
  have hs : (√2 : ℝ) * √2 = 2 := Real.mul_self_sqrt (by norm_num)
  have hs0 : (1 : ℝ) < √2 := by
    rw [show (1:ℝ) = √1 by simp]; exact Real.sqrt_lt_sqrt (by norm_num) (by norm_num)
  have hs1 : (√2 : ℝ) < 3 / 2 := by
    rw [Real.sqrt_lt' (by norm_num)]; norm_num
  -- auxiliary value of the upper limit 2; the lower limit is 0
  set t := v2 1 0 2 with ht
  have hv0 : v2 1 0 0 = 0 := by simp [v2, sgn]
  have ht2 : t * t = 2 * √2 - 2 := by
    have h32 : √(2 * 2 * (2 * 2) + 4 * (2 * 2) * 1 * (1:ℝ)) = 4 * √2 := by
      rw [show (2 * 2 * (2 * 2) + 4 * (2 * 2) * 1 * (1:ℝ)) = 4 ^ 2 * 2 by norm_num,
        Real.sqrt_mul (by positivity), Real.sqrt_sq (by norm_num)]
    have : t = √((4 * √2 - 2 * 2) / 2) := by
      rw [ht]
      simp only [v2, sub_zero, h32]
      norm_num [sgn]
    rw [this, Real.mul_self_sqrt (by linarith)]
    ring
  have hmid : (restore C Λ (save (setCenter ⟨.b, 0, false, 3, 1, -1, 0, 1, 1, 0⟩ 1))).grid.freq 1 =
      v2Inv 1 0 (t / 2) := by
    have e1 : ((1 : ℝ) - -1) * (1 / 2) + 1 = 2 := by norm_num
    have e2 : -(((1 : ℝ) - -1) * (1 / 2)) + 1 = 0 := by norm_num
    simp only [restore, save, setCenter, construct, Params.grid, Grid.freq, Grid.spacing, Bool.false_eq_true,
      false_and, ↓reduceIte, e1, e2, hv0, hC, ← ht]
    congr 1
    push_cast; ring
  rw [hmid] at h1
  simp only [v2Inv] at h1
  have hq : t / 2 * (t / 2) = (√2 - 1) / 2 := by rw [show t / 2 * (t / 2) = t * t / 4 by ring, ht2]; ring
  have habs : (1 * (t / 2) * |t / 2|) * (1 * (t / 2) * |t / 2|) = ((√2 - 1) / 2) * ((√2 - 1) / 2) := by
    have : |t / 2| * |t / 2| = (√2 - 1) / 2 := by rw [abs_mul_abs_self, hq]
    calc (1 * (t / 2) * |t / 2|) * (1 * (t / 2) * |t / 2|)
        = (t / 2 * (t / 2)) * (|t / 2| * |t / 2|) := by ring
      _ = _ := by rw [hq, this]
  have hpos : 0 < 1 - t / 2 * (t / 2) := by rw [hq]; linarith
  have hsq : √(1 - t / 2 * (t / 2)) * √(1 - t / 2 * (t / 2)) = 1 - (√2 - 1) / 2 := by
    rw [Real.mul_self_sqrt hpos.le, hq]
  have hne : √(1 - t / 2 * (t / 2)) ≠ 0 := (Real.sqrt_pos.mpr hpos).ne'
  have h2 : √(1 - t / 2 * (t / 2)) = 1 * (t / 2) * |t / 2| := by
    have h3 := (eq_div_iff hne).mp (h1.trans (zero_add _))
    linarith
  rw [h2, habs] at hsq
  nlinarith

/-- C54 is false for files of an executable with another number of grid points: that number is stored and read
but not used. -/
theorem c54_points_refuted (C : Constants) (Λ : ℝ) (g : Params) (h : g.n ≠ C.number g.kind g.diagClass) :
    ¬ SameGrid g (restore C Λ (save g)) := by
  rintro ⟨h1, _⟩
  exact h (by simpa [restore, save, construct] using h1)

end Verif.GridSave
