import Verif.Imag.Props
import Verif.Imag.Model
import Verif.MatSum.Props
import Mathlib.Analysis.Complex.Basic
import Mathlib.MeasureTheory.Integral.Bochner.ContinuousLinearMap

/-! C157 for the summations of the code. -/
namespace Verif.Imag
open Verif.Symmetries
open Verif.Freqs (Ch Fr)

section
variable {R : Type} [CommRing R] [StarRing R]

/-- C157: the finite sums over Matsubara frequencies treat the lines alike and contain opposite energies together. -/
theorem c157_finite (N : Nat) : GoodTotal (finiteTotal N : Total ℤ R) where
  channels w f := by
    have : window N .a w = window N .t w := rfl
    simp only [finiteTotal, this]; rfl
  exchange w f := by
    refine Finset.sum_bij' (fun y _ => y + w) (fun y _ => y - w) ?_ ?_ ?_ ?_ ?_
    · intro y hy
      simp only [window, Finset.mem_filter, Finset.mem_Icc, reduceCtorEq, if_false] at hy ⊢
      omega
    · intro y hy
      simp only [window, Finset.mem_filter, Finset.mem_Icc, reduceCtorEq, if_false] at hy ⊢
      omega
    · intro y _; ring
    · intro y _; ring
    · intro y _; simp only [partner]; congr 1; ring
  parallel w f := by
    refine Finset.sum_bij' (fun y _ => w - y) (fun y _ => w - y) ?_ ?_ ?_ ?_ ?_
    · intro y hy
      simp only [window, Finset.mem_filter, Finset.mem_Icc, if_true] at hy ⊢
      omega
    · intro y hy
      simp only [window, Finset.mem_filter, Finset.mem_Icc, if_true] at hy ⊢
      omega
    · intro y _; ring
    · intro y _; ring
    · intro y _; simp only [partner]; congr 1; ring
  reverse c w f := by
    refine Finset.sum_bij' (fun y _ => -y) (fun y _ => -y) ?_ ?_ ?_ ?_ ?_
    · intro y hy
      simp only [window, Finset.mem_filter, Finset.mem_Icc] at hy ⊢
      split_ifs at hy ⊢ <;> omega
    · intro y hy
      simp only [window, Finset.mem_filter, Finset.mem_Icc] at hy ⊢
      split_ifs at hy ⊢ <;> omega
    · intro y _; ring
    · intro y _; ring
    · intro y _; cases c <;> simp only [partner] <;> congr 1 <;> ring
  conj c w f := by simp only [finiteTotal, star_sum]
  minus c w f := by simp only [finiteTotal, Finset.sum_neg_distrib]

/-- C157: the pair of propagators of the code, if conjugation of the propagators changes the sign of the energy. With
particle-hole symmetry, only the (real, odd) imaginary parts are stored. -/
theorem c157_pair {K : Type} [CommRing K] (ph diff : Bool) (g s : K → R)
    (hg : ∀ v, star (g v) = (if ph then -1 else 1) * g (-v)) (hs : ∀ v, star (s v) = (if ph then -1 else 1) * s (-v)) :
    GoodPair (pairOf ph diff g s) where
  swap y z := by cases diff <;> simp only [pairOf, if_true, if_false, Bool.false_eq_true] <;> ring
  conj y z := by
    cases diff <;> cases ph <;>
      simp only [pairOf, if_true, if_false, Bool.false_eq_true, star_mul', star_add, hg, hs, star_neg, star_one] <;> ring

end

theorem sym (b : ℝ) (f : ℝ → ℂ) : ∫ x in (-b)..b, f x = ∫ x in (-b)..b, f (-x) := by
  have := intervalIntegral.integral_comp_neg (a := -b) (b := b) f
  rw [neg_neg] at this
  exact this.symm

/-- C157: the integral between opposite limits at zero temperature. -/
theorem c157_zero (b : ℝ) : GoodTotal (zeroT b) where
  channels w f := rfl
  exchange w f := by
    simp only [zeroT, reduceCtorEq, if_false]
    refine intervalIntegral.integral_congr fun x _ => ?_
    congr 1 <;> ring
  parallel w f := by
    simp only [zeroT, if_true]
    rw [sym]
    refine intervalIntegral.integral_congr fun x _ => ?_
    congr 1 <;> ring
  reverse c w f := by
    simp only [zeroT]
    rw [sym]
    refine intervalIntegral.integral_congr fun x _ => ?_
    cases c <;> simp only [reduceCtorEq, if_false, if_true] <;> congr 1 <;> ring
  conj c w f := by
    simp only [zeroT]
    rw [intervalIntegral, intervalIntegral, star_sub]
    simp only [Complex.star_def, ← integral_conj]
    congr 2 <;> funext x <;> split_ifs <;> rfl
  minus c w f := by
    simp only [zeroT]
    rw [← intervalIntegral.integral_neg]
    refine intervalIntegral.integral_congr fun x _ => ?_
    split_ifs <;> rfl

end Verif.Imag
