import Mathlib.Analysis.SpecialFunctions.Trigonometric.Cotangent
import Mathlib.Analysis.Complex.IntegerCompl
import Mathlib.Analysis.SpecialFunctions.Arsinh

/-
The partial-fraction expansion of the hyperbolic tangent, from Mathlib's expansion of the cotangent.
-/
namespace Verif.Filling

open Complex Real

theorem integerComplement_I {y : ℝ} (hy : y ≠ 0) : (y : ℂ) * I ∈ Complex.integerComplement := by
  rintro ⟨n, hn⟩
  have := congrArg Complex.im hn
  simp at this
  exact hy this.symm

/-- The series of the hyperbolic cotangent. -/
theorem coth_series {y : ℝ} (hy : y ≠ 0) :
    HasSum (fun n : ℕ => 2 * y / (y ^ 2 + ((n:ℝ) + 1) ^ 2))
      (π * (Real.cosh (π * y) / Real.sinh (π * y)) - 1 / y) := by
  have hz := integerComplement_I hy
  have hs : HasSum (fun n : ℕ => cotTerm ((y:ℂ) * I) n) (π * Complex.cot (π * (y * I)) - 1 / (y * I)) := by
    rw [cot_series_rep' hz]
    exact (summable_cotTerm hz).hasSum
  have h2 := hs.mul_left Complex.I
  have hyc : (y : ℂ) ≠ 0 := by exact_mod_cast hy
  have hI2 : (I:ℂ) ^ 2 = -1 := I_sq
  have t1 : (fun n : ℕ => I * cotTerm ((y:ℂ) * I) n) =
      fun n : ℕ => (((2 * y / (y ^ 2 + ((n:ℝ) + 1) ^ 2) : ℝ)) : ℂ) := by
    funext n
    rw [cotTerm_identity hz]
    have e : ((y:ℂ) * I + (n + 1)) * (y * I - (n + 1)) = -(y ^ 2 + (n + 1) ^ 2) := by
      linear_combination (y:ℂ) ^ 2 * hI2
    rw [e]
    have hne : ((y:ℂ) ^ 2 + (n + 1) ^ 2) ≠ 0 := by
      have : (0:ℝ) < y ^ 2 + (n + 1) ^ 2 := by positivity
      exact_mod_cast this.ne'
    push_cast
    rw [one_div, inv_neg, div_eq_mul_inv]
    linear_combination (-2 * (y:ℂ) * ((y:ℂ) ^ 2 + (n + 1) ^ 2)⁻¹) * hI2
  have t2 : I * (π * Complex.cot (π * (y * I)) - 1 / (y * I)) =
      ((π * (Real.cosh (π * y) / Real.sinh (π * y)) - 1 / y : ℝ) : ℂ) := by
    have hsn : Real.sinh (π * y) ≠ 0 := by
      intro h
      have := Real.sinh_injective (h.trans Real.sinh_zero.symm)
      exact mul_ne_zero Real.pi_ne_zero hy this
    have hsn' : (Real.sinh (π * y) : ℂ) ≠ 0 := by exact_mod_cast hsn
    have e1 : (π : ℂ) * (y * I) = ((π * y : ℝ) : ℂ) * I := by push_cast; ring
    rw [e1, Complex.cot, Complex.cos_mul_I, Complex.sin_mul_I, ← Complex.ofReal_cosh, ← Complex.ofReal_sinh]
    have hIn : (I:ℂ) ≠ 0 := I_ne_zero
    generalize Real.sinh (π * y) = s at hsn' ⊢
    generalize Real.cosh (π * y) = c
    push_cast
    field_simp
  rw [t1, t2] at h2
  exact Complex.hasSum_ofReal.1 h2

/-- The series of the hyperbolic tangent: the poles are at the odd multiples of `i/2`. -/
theorem tanh_series (y : ℝ) :
    HasSum (fun n : ℕ => 8 * y / (4 * y ^ 2 + (2 * (n:ℝ) + 1) ^ 2)) (π * Real.tanh (π * y)) := by
  rcases eq_or_ne y 0 with rfl | hy
  · simp
  have h2y : 2 * y ≠ 0 := mul_ne_zero two_ne_zero hy
  have hA := (coth_series h2y).mul_left 2
  have hB := coth_series hy
  set a : ℕ → ℝ := fun k => 2 * (2 * (2 * y) / ((2 * y) ^ 2 + ((k:ℝ) + 1) ^ 2)) with ha
  have hodd : HasSum (fun n : ℕ => a (2 * n + 1)) (π * (Real.cosh (π * y) / Real.sinh (π * y)) - 1 / y) := by
    convert hB using 2 with n
    simp only [ha]
    push_cast
    have h1 : (2 * y) ^ 2 + (2 * (n:ℝ) + 1 + 1) ^ 2 = 4 * (y ^ 2 + (n + 1) ^ 2) := by ring
    rw [h1]
    have h2 : y ^ 2 + ((n:ℝ) + 1) ^ 2 ≠ 0 := by positivity
    field_simp
    ring
  have heven : Summable fun n : ℕ => a (2 * n) :=
    hA.summable.comp_injective (fun m n h => by simpa using h)
  have htot := heven.hasSum.even_add_odd hodd
  have hu := htot.unique hA
  have hval : ∑' n : ℕ, a (2 * n) = π * Real.tanh (π * y) := by
    have hsn : Real.sinh (π * y) ≠ 0 := by
      intro h
      exact mul_ne_zero Real.pi_ne_zero hy (Real.sinh_injective (h.trans Real.sinh_zero.symm))
    have hcn := (Real.cosh_pos (π * y)).ne'
    have e2 : π * (2 * y) = 2 * (π * y) := by ring
    rw [e2, Real.cosh_two_mul, Real.sinh_two_mul] at hu
    rw [Real.tanh_eq_sinh_div_cosh, eq_sub_of_add_eq hu]
    field_simp
    ring
  have := heven.hasSum
  rw [hval] at this
  convert this using 2 with n
  simp only [ha]
  push_cast
  have h1 : (2 * y) ^ 2 + (2 * (n:ℝ) + 1) ^ 2 = 4 * y ^ 2 + (2 * n + 1) ^ 2 := by ring
  rw [h1]
  ring

end Verif.Filling
