import Verif.GridSave.Props
import Verif.FreqGrid.Props
import Mathlib.Tactic.FieldSimp
import Mathlib.Tactic.Positivity

/-
C90: how the frequency grid follows the flow parameter.
-/
namespace Verif.GridSave
open Verif.GridMap Verif.FreqGrid

theorem sgn_scale {k : ℝ} (hk : 0 < k) (x : ℝ) : sgn (k * x) = sgn x := by
  simp only [sgn, mul_nonneg_iff_of_pos_left hk]
  have : k * x ≤ 0 ↔ x ≤ 0 := by
    rw [mul_nonpos_iff]; constructor
    · rintro (h | h)
      · exact h.2
      · linarith [h.1]
    · intro h; exact .inl ⟨hk.le, h⟩
  simp only [this]

theorem v2_scale {k : ℝ} (hk : 0 < k) {W : ℝ} (hW : W ≠ 0) (w : ℝ) : v2 (k * W) 0 (k * w) = v2 W 0 w := by
  simp only [v2, sub_zero]
  have h1 : k * w * (k * w) * (k * w * (k * w)) + 4 * (k * w * (k * w)) * (k * W) * (k * W)
      = (k ^ 2) ^ 2 * (w * w * (w * w) + 4 * (w * w) * W * W) := by ring
  have h2 : √(k * w * (k * w) * (k * w * (k * w)) + 4 * (k * w * (k * w)) * (k * W) * (k * W))
      = k ^ 2 * √(w * w * (w * w) + 4 * (w * w) * W * W) := by
    rw [h1, Real.sqrt_mul (by positivity), Real.sqrt_sq (by positivity)]
  have h3 : (k ^ 2 * √(w * w * (w * w) + 4 * (w * w) * W * W) - k * w * (k * w)) / 2
      = k ^ 2 * ((√(w * w * (w * w) + 4 * (w * w) * W * W) - w * w) / 2) := by ring
  rw [h2, h3, Real.sqrt_mul (by positivity), Real.sqrt_sq hk.le, sgn_scale hk]
  field_simp

theorem v2Inv_scale (k W t : ℝ) : v2Inv (k * W) 0 t = k * v2Inv W 0 t := by
  simp only [v2Inv, zero_add]; ring

/-- **C90.** The frequencies of a grid built for one value of the flow parameter are those of the grid built for another value,
multiplied by the ratio of the half-widths `(Λ + Γ)/2`; the auxiliary grid on which interpolation is done is the same for
all values. -/
theorem c90_rescale (C : Constants) (kind : Kind) (dc : Fin 3) (pp : Bool) (Λ Λ' : ℝ)
    (h : 0 < Λ + C.gamma) (h' : 0 < Λ' + C.gamma) (hd : C.delta kind dc ≠ 0) (i : Nat) :
    (construct C kind dc Λ' pp).grid.freq i =
        (Λ' + C.gamma) / (Λ + C.gamma) * (construct C kind dc Λ pp).grid.freq i ∧
      (construct C kind dc Λ' pp).grid.aux i = (construct C kind dc Λ pp).grid.aux i := by
  set k := (Λ' + C.gamma) / (Λ + C.gamma) with hk
  have kp : 0 < k := div_pos h' h
  set W := C.delta kind dc * ((Λ + C.gamma) / 2) with hW
  have Wn : W ≠ 0 := mul_ne_zero hd (by positivity)
  have e : C.delta kind dc * ((Λ' + C.gamma) / 2) = k * W := by
    rw [hk, hW]; field_simp
  have up : v2 (k * W) 0 (k * W * 100) = v2 W 0 (W * 100) := by
    rw [mul_assoc, v2_scale kp Wn]
  have lo : v2 (k * W) 0 (if pp then 0 else -(k * W * 100)) = v2 W 0 (if pp then 0 else -(W * 100)) := by
    cases pp
    · have : -(k * W * 100) = k * -(W * 100) := by ring
      simp only [Bool.false_eq_true, if_false]
      rw [this, v2_scale kp Wn]
    · have := v2_scale kp Wn 0
      rw [mul_zero] at this
      simpa using this
  constructor
  · simp only [construct, Params.grid, Grid.freq, Grid.spacing, e, up, lo, v2Inv_scale, ← hW]
    split_ifs <;> simp
  · simp only [construct, Params.grid, Grid.aux, Grid.spacing, e, up, lo, ← hW]

/-- **C90** (extent). The grid reaches from minus to plus one hundred times its scale (from zero, if only positive
frequencies are kept); the scale is `(Λ + Γ)/2` times the factor of the class. -/
theorem c90_extent (C : Constants) (kind : Kind) (dc : Fin 3) (Λ : ℝ) (h : 0 < Λ + C.gamma) (hd : 0 < C.delta kind dc)
    (hn : 2 ≤ C.number kind dc) :
    let W := C.delta kind dc * ((Λ + C.gamma) / 2)
    (construct C kind dc Λ false).grid.freq 0 = -(100 * W) ∧
      (construct C kind dc Λ false).grid.freq (C.number kind dc - 1) = 100 * W ∧
      (construct C kind dc Λ true).grid.freq 0 = 0 ∧
      (construct C kind dc Λ true).grid.freq (C.number kind dc - 1) = 100 * W := by
  intro W
  have Wp : 0 < W := mul_pos hd (by positivity)
  have cov := c21_v2 Wp 0
  have N1 : ((C.number kind dc : ℝ) - 1) ≠ 0 := by
    have : (2 : ℝ) ≤ C.number kind dc := by exact_mod_cast hn
    linarith
  have cast : ((C.number kind dc - 1 : ℕ) : ℝ) = (C.number kind dc : ℝ) - 1 := by
    rw [Nat.cast_sub (by omega)]; simp
  have end_ : ∀ a b : ℝ, a + ((C.number kind dc : ℝ) - 1) * ((b - a) / ((C.number kind dc : ℝ) - 1)) = b := by
    intro a b; field_simp; ring
  have n0 : C.number kind dc - 1 ≠ 0 := by omega
  have inv : ∀ w, v2Inv W 0 (v2 W 0 w) = w := cov.back
  refine ⟨?_, ?_, ?_, ?_⟩
  · simp only [construct, Params.grid, Grid.freq, Bool.false_eq_true, false_and, if_false, Nat.cast_zero, zero_mul,
      add_zero]
    rw [inv]; ring
  · simp only [construct, Params.grid, Grid.freq, Grid.spacing, Bool.false_eq_true, false_and, if_false, cast]
    rw [end_, inv]; ring
  · simp [construct, Params.grid, Grid.freq]
  · simp only [construct, Params.grid, Grid.freq, Grid.spacing, n0, and_false, if_false, cast]
    rw [end_, inv]; ring

example : ∃ C : Constants, ∀ k d, 0 < C.delta k d ∧ 2 ≤ C.number k d ∧ 0 < (19.8 : ℝ) + C.gamma :=
  ⟨⟨fun _ _ => 3, fun _ _ => 10, 1⟩, fun _ _ => ⟨by norm_num, le_rfl.trans (by norm_num), by norm_num⟩⟩

end Verif.GridSave
