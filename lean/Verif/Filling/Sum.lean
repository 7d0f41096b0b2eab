import Verif.Filling.Convolve
import Mathlib.MeasureTheory.Integral.DominatedConvergence
import Mathlib.Analysis.PSeries

/-
The occupation at finite temperature as a sum over the poles of the distribution.
-/
namespace Verif.Filling

open Real MeasureTheory Filter Topology

variable {D T : ℝ}

/-- The distribution written with the hyperbolic tangent. -/
noncomputable def nTanh (T x : ℝ) : ℝ := 1 / 2 * (1 - Real.tanh (x / (2 * T)))

theorem pole_pos (hT : 0 < T) (n : ℕ) : 0 < pole T n := by
  have := Real.pi_pos
  unfold pole; positivity

theorem hasSum_of_eq {f g : ℕ → ℝ} {a : ℝ} (h : HasSum f a) (hfg : ∀ n, g n = f n) : HasSum g a := by
  rw [show g = f from funext hfg]; exact h

theorem tanh_poles (hT : 0 < T) (x : ℝ) :
    HasSum (fun n : ℕ => 4 * T * (x / (x ^ 2 + pole T n ^ 2))) (Real.tanh (x / (2 * T))) := by
  have hpi := Real.pi_pos
  have h := (tanh_series (x / (2 * π * T))).mul_left (1 / π)
  have e1 : 1 / π * (π * Real.tanh (π * (x / (2 * π * T)))) = Real.tanh (x / (2 * T)) := by
    rw [← mul_assoc, one_div_mul_cancel hpi.ne', one_mul]
    congr 1
    field_simp
  rw [e1] at h
  refine hasSum_of_eq h fun n => ?_
  have h1 : x ^ 2 + pole T n ^ 2 ≠ 0 := by have := pole_pos hT n; positivity
  have h2 : 4 * (x / (2 * π * T)) ^ 2 + (2 * (n:ℝ) + 1) ^ 2 = (x ^ 2 + pole T n ^ 2) / (π * T) ^ 2 := by
    unfold pole; field_simp; ring
  rw [h2]
  field_simp
  ring

theorem measurable_nTanh (T : ℝ) : Measurable (nTanh T) := by
  have : Continuous (nTanh T) := by
    unfold nTanh
    have h : Continuous fun x : ℝ => Real.tanh (x / (2 * T)) := by
      simp only [Real.tanh_eq_sinh_div_cosh]
      exact (Real.continuous_sinh.comp (by fun_prop)).div (Real.continuous_cosh.comp (by fun_prop))
        fun x => (Real.cosh_pos _).ne'
    fun_prop
  exact this.measurable

theorem tanh_abs_lt (x : ℝ) : |Real.tanh x| < 1 := abs_lt.2 ⟨Real.neg_one_lt_tanh x, Real.tanh_lt_one x⟩

theorem nTanh_pos (T x : ℝ) : 0 < nTanh T x := by
  have := Real.tanh_lt_one (x / (2 * T)); unfold nTanh; linarith

theorem nTanh_lt_one (T x : ℝ) : nTanh T x < 1 := by
  have := Real.neg_one_lt_tanh (x / (2 * T)); unfold nTanh; linarith

theorem nTanh_symm (T x : ℝ) : nTanh T (-x) = 1 - nTanh T x := by
  unfold nTanh
  rw [neg_div, Real.tanh_neg]
  ring

theorem summable_poles (hT : 0 < T) (hD : 0 < D) {e : ℝ} (he : 0 ≤ e) :
    Summable fun n : ℕ => 2 * T * (e / ((pole T n + D) ^ 2 + e ^ 2)) := by
  have hpi := Real.pi_pos
  have hs : Summable fun n : ℕ => 1 / ((n:ℝ) + 1) ^ 2 := by
    have := (summable_nat_add_iff 1).2 (Real.summable_one_div_nat_pow.2 (by norm_num : 1 < 2))
    simpa using this
  have hs2 : Summable fun n : ℕ => 2 * T * (e * (1 / (π * T) ^ 2 * (1 / ((n:ℝ) + 1) ^ 2))) :=
    ((hs.mul_left _).mul_left _).mul_left _
  refine Summable.of_nonneg_of_le (fun n => by positivity) (fun n => ?_) hs2
  have hb : ((n:ℝ) + 1) * (π * T) ≤ pole T n + D := by
    unfold pole
    have : (0:ℝ) ≤ n * (π * T) := by positivity
    nlinarith
  have : (π * T) ^ 2 * ((n:ℝ) + 1) ^ 2 ≤ (pole T n + D) ^ 2 + e ^ 2 := by
    have h0 : 0 ≤ ((n:ℝ) + 1) * (π * T) := by positivity
    nlinarith [mul_self_le_mul_self h0 hb, sq_nonneg e]
  rw [div_eq_mul_inv]
  gcongr
  rw [← one_div, one_div_mul_one_div]
  exact one_div_le_one_div_of_le (by positivity) this

theorem occ_poles_pos (hT : 0 < T) (hD : 0 < D) {e : ℝ} (he : 0 < e) :
    HasSum (fun n : ℕ => 2 * T * (e / ((pole T n + D) ^ 2 + e ^ 2))) (1 / 2 - occ (nTanh T) D e) := by
  let M : ℝ → ℝ := fun x => lor D (x - e) - lor D (x - (-e))
  have hM : ∀ x, 0 ≤ x * M x := by
    intro x
    have e1 : M x = 1 / π * (D * (4 * x * e) / (((x - e) ^ 2 + D ^ 2) * ((x - (-e)) ^ 2 + D ^ 2))) := by
      have h1 : (x - e) ^ 2 + D ^ 2 ≠ 0 := by positivity
      have h2 : (x - (-e)) ^ 2 + D ^ 2 ≠ 0 := by positivity
      simp only [M, lor]
      field_simp
      ring
    rw [e1]
    have hpi := Real.pi_pos
    have : x * (1 / π * (D * (4 * x * e) / (((x - e) ^ 2 + D ^ 2) * ((x - (-e)) ^ 2 + D ^ 2)))) =
      1 / π * (D * (4 * e) * x ^ 2 / (((x - e) ^ 2 + D ^ 2) * ((x - (-e)) ^ 2 + D ^ 2))) := by ring
    rw [this]
    positivity
  let F : ℕ → ℝ → ℝ := fun n x => 4 * T * (lor D (x - e) * (x / (x ^ 2 + pole T n ^ 2)) -
    lor D (x - (-e)) * (x / (x ^ 2 + pole T n ^ 2)))
  have hFM : ∀ n x, F n x = 4 * T * (x / (x ^ 2 + pole T n ^ 2)) * M x := fun n x => by simp only [F, M]; ring
  have hF0 : ∀ n x, 0 ≤ F n x := fun n x => by
    rw [hFM]
    have : 4 * T * (x / (x ^ 2 + pole T n ^ 2)) * M x = 4 * T * (x * M x) / (x ^ 2 + pole T n ^ 2) := by ring
    rw [this]
    have := hM x
    have := pole_pos hT n
    positivity
  have hFi : ∀ n, Integrable (F n) := fun n =>
    ((integrable_term hD (pole_pos hT n) e).sub (integrable_term hD (pole_pos hT n) (-e))).const_mul _
  have hFint : ∀ n, ∫ x, F n x = 4 * (2 * T * (e / ((pole T n + D) ^ 2 + e ^ 2))) := fun n => by
    simp only [F]
    rw [integral_const_mul, integral_sub (integrable_term hD (pole_pos hT n) e)
      (integrable_term hD (pole_pos hT n) (-e)), convolve hD (pole_pos hT n), convolve hD (pole_pos hT n), neg_sq]
    ring
  have hsum : Summable fun n => ∫ x, ‖F n x‖ := by
    have : (fun n => ∫ x, ‖F n x‖) = fun n => 4 * (2 * T * (e / ((pole T n + D) ^ 2 + e ^ 2))) := by
      funext n
      rw [← hFint]
      congr 1
      funext x
      exact Real.norm_of_nonneg (hF0 n x)
    rw [this]
    exact (summable_poles hT hD he.le).mul_left 4
  have hmain := hasSum_integral_of_summable_integral_norm hFi hsum
  have hpt : ∀ x, ∑' n, F n x = Real.tanh (x / (2 * T)) * M x := fun x => by
    simp only [hFM]
    rw [tsum_mul_right, (tanh_poles hT x).tsum_eq]
  have hm := measurable_nTanh T
  have h0 := fun x => (nTanh_pos T x).le
  have h1 := fun x => (nTanh_lt_one T x).le
  have hval : ∫ x, Real.tanh (x / (2 * T)) * M x = 4 * (1 / 2 - occ (nTanh T) D e) := by
    have e1 : (fun x => Real.tanh (x / (2 * T)) * M x) = fun x =>
        (lor D (x - e) - lor D (x - (-e))) - 2 * (nTanh T x * lor D (x - e) - nTanh T x * lor D (x - (-e))) := by
      funext x
      simp only [M, nTanh]
      ring
    have i1 : Integrable fun x => lor D (x - e) - lor D (x - (-e)) :=
      (integrable_lor_sub hD e).sub (integrable_lor_sub hD (-e))
    have i2 : Integrable fun x => 2 * (nTanh T x * lor D (x - e) - nTanh T x * lor D (x - (-e))) :=
      ((integrable_occ hD hm h0 h1 e).sub (integrable_occ hD hm h0 h1 (-e))).const_mul 2
    rw [e1, integral_sub i1 i2, integral_sub (integrable_lor_sub hD e) (integrable_lor_sub hD (-e)), integral_lor_sub hD, integral_lor_sub hD,
      integral_const_mul, integral_sub (integrable_occ hD hm h0 h1 e) (integrable_occ hD hm h0 h1 (-e))]
    have hs := occ_symm hD hm h0 h1 (nTanh_symm T) e
    unfold occ at hs ⊢
    rw [hs]
    ring
  have h2 : HasSum (fun n => ∫ x, F n x) (∫ x, Real.tanh (x / (2 * T)) * M x) := by
    rw [← funext hpt]; exact hmain
  rw [hval, funext hFint] at h2
  exact (hasSum_mul_left_iff (by norm_num : (4:ℝ) ≠ 0)).1 h2

/-- **The occupation at finite temperature as a sum over the poles of the distribution.** -/
theorem occ_poles (hT : 0 < T) (hD : 0 < D) (e : ℝ) :
    HasSum (fun n : ℕ => 2 * T * (e / ((pole T n + D) ^ 2 + e ^ 2))) (1 / 2 - occ (nTanh T) D e) := by
  have hs := occ_symm hD (measurable_nTanh T) (fun x => (nTanh_pos T x).le) (fun x => (nTanh_lt_one T x).le)
    (nTanh_symm T)
  rcases lt_trichotomy e 0 with he | rfl | he
  · have h := (occ_poles_pos hT hD (neg_pos.2 he)).neg
    have h2 := hs e
    rw [h2] at h
    have e1 : -(1 / 2 - (1 - occ (nTanh T) D e)) = 1 / 2 - occ (nTanh T) D e := by ring
    rw [e1] at h
    refine hasSum_of_eq h fun n => ?_
    rw [neg_sq]
    ring
  · have h2 := hs 0
    rw [neg_zero] at h2
    have : occ (nTanh T) D 0 = 1 / 2 := by linarith
    rw [this]
    simp
  · exact occ_poles_pos hT hD he

end Verif.Filling
