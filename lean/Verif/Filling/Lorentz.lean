import Verif.Filling.Spec
import Mathlib.Analysis.SpecialFunctions.ImproperIntegrals
import Mathlib.MeasureTheory.Integral.IntegralEqImproper
import Mathlib.Analysis.SpecialFunctions.Trigonometric.ArctanDeriv
import Mathlib.MeasureTheory.Integral.IntervalIntegral.Basic

/-
The Lorentzian and integrals with it.
-/
namespace Verif.Filling

open Real MeasureTheory Filter Topology

variable {D : ℝ}

theorem lor_pos (hD : 0 < D) (x : ℝ) : 0 < lor D x := by unfold lor; positivity

theorem lor_neg (D x : ℝ) : lor D (-x) = lor D x := by simp [lor]

theorem continuous_lor (hD : 0 < D) : Continuous (lor D) := by
  unfold lor
  refine continuous_const.mul (continuous_const.div (by fun_prop) fun x => ?_)
  positivity

theorem lor_scale (hD : 0 < D) (x : ℝ) : lor D x = (π * D)⁻¹ * (1 + (D⁻¹ * x) ^ 2)⁻¹ := by
  have hpi := Real.pi_pos
  have h1 : (1 + (D⁻¹ * x) ^ 2) ≠ 0 := by positivity
  have h2 : x ^ 2 + D ^ 2 ≠ 0 := by positivity
  have e : x ^ 2 + D ^ 2 = D ^ 2 * (1 + (D⁻¹ * x) ^ 2) := by field_simp; ring
  unfold lor
  rw [e]
  field_simp

theorem integrable_lor (hD : 0 < D) : Integrable (lor D) := by
  rw [funext (lor_scale hD)]
  exact ((integrable_comp_mul_left_iff (fun x : ℝ => (1 + x ^ 2)⁻¹) (inv_ne_zero hD.ne')).2
    integrable_inv_one_add_sq).const_mul _

theorem integrable_lor_sub (hD : 0 < D) (e : ℝ) : Integrable (fun x => lor D (x - e)) :=
  (integrable_lor hD).comp_sub_right e

theorem integral_lor (hD : 0 < D) : ∫ x, lor D x = 1 := by
  rw [funext (lor_scale hD), integral_const_mul,
    Measure.integral_comp_mul_left (fun x : ℝ => (1 + x ^ 2)⁻¹), integral_univ_inv_one_add_sq, inv_inv,
    abs_of_pos hD]
  have hpi := Real.pi_pos
  simp only [smul_eq_mul]
  field_simp

theorem integral_lor_sub (hD : 0 < D) (e : ℝ) : ∫ x, lor D (x - e) = 1 := by
  rw [integral_sub_right_eq_self (lor D) e, integral_lor hD]

theorem hasDerivAt_arctan_div (hD : D ≠ 0) (e x : ℝ) :
    HasDerivAt (fun x => arctan ((x - e) / D)) (D / ((x - e) ^ 2 + D ^ 2)) x := by
  have h := (((hasDerivAt_id' x).sub_const e).div_const D).arctan
  convert h using 1
  have h1 : (x - e) ^ 2 + D ^ 2 ≠ 0 := by positivity
  have h2 : 1 + ((x - e) / D) ^ 2 ≠ 0 := by positivity
  field_simp
  ring

theorem hasDerivAt_cdf (hD : 0 < D) (e x : ℝ) :
    HasDerivAt (fun x => 1 / π * arctan ((x - e) / D)) (lor D (x - e)) x :=
  (hasDerivAt_arctan_div hD.ne' e x).const_mul _

theorem tendsto_arctan_div_atTop (hD : 0 < D) (e : ℝ) :
    Tendsto (fun x => arctan ((x - e) / D)) atTop (𝓝 (π / 2)) := by
  have h : Tendsto (fun x : ℝ => (x - e) / D) atTop atTop :=
    (tendsto_atTop_add_const_right atTop (-e) tendsto_id).atTop_div_const hD
  exact (tendsto_arctan_atTop.comp h).mono_right nhdsWithin_le_nhds

theorem tendsto_arctan_div_atBot (hD : 0 < D) (e : ℝ) :
    Tendsto (fun x => arctan ((x - e) / D)) atBot (𝓝 (-(π / 2))) := by
  have h : Tendsto (fun x : ℝ => (x - e) / D) atBot atBot :=
    (tendsto_atBot_add_const_right atBot (-e) tendsto_id).atBot_div_const hD
  exact (tendsto_arctan_atBot.comp h).mono_right nhdsWithin_le_nhds

theorem integral_Iic_lor (hD : 0 < D) (e c : ℝ) :
    ∫ x in Set.Iic c, lor D (x - e) = 1 / 2 + 1 / π * arctan ((c - e) / D) := by
  rw [integral_Iic_of_hasDerivAt_of_tendsto' (fun x _ => hasDerivAt_cdf hD e x)
    (integrable_lor_sub hD e).integrableOn ((tendsto_arctan_div_atBot hD e).const_mul (1 / π))]
  have := Real.pi_ne_zero
  field_simp
  ring

/-! ### The occupation for a general distribution -/

theorem integrable_occ (hD : 0 < D) {nF : ℝ → ℝ} (hm : Measurable nF) (h0 : ∀ x, 0 ≤ nF x) (h1 : ∀ x, nF x ≤ 1)
    (e : ℝ) : Integrable fun x => nF x * lor D (x - e) := by
  refine (integrable_lor_sub hD e).bdd_mul (c := 1) hm.aestronglyMeasurable (ae_of_all _ fun x => ?_)
  rw [Real.norm_of_nonneg (h0 x)]
  exact h1 x

theorem integrable_occ' (hD : 0 < D) {nF : ℝ → ℝ} (hm : Measurable nF) (h0 : ∀ x, 0 ≤ nF x) (h1 : ∀ x, nF x ≤ 1)
    (e : ℝ) : Integrable fun x => nF (x + e) * lor D x := by
  simpa using (integrable_occ hD hm h0 h1 e).comp_add_right e

theorem occ_shift (nF : ℝ → ℝ) (D e : ℝ) : occ nF D e = ∫ x, nF (x + e) * lor D x := by
  unfold occ
  rw [← integral_add_right_eq_self (fun x => nF x * lor D (x - e)) e]
  simp

theorem occ_nonneg (hD : 0 < D) {nF : ℝ → ℝ} (h0 : ∀ x, 0 ≤ nF x) (e : ℝ) : 0 ≤ occ nF D e :=
  integral_nonneg fun x => mul_nonneg (h0 x) (lor_pos hD _).le

theorem occ_pos (hD : 0 < D) {nF : ℝ → ℝ} (hm : Measurable nF) (h0 : ∀ x, 0 < nF x) (h1 : ∀ x, nF x ≤ 1)
    (e : ℝ) : 0 < occ nF D e := by
  unfold occ
  rw [integral_pos_iff_support_of_nonneg (fun x => mul_nonneg (h0 x).le (lor_pos hD _).le)
    (integrable_occ hD hm (fun x => (h0 x).le) h1 e)]
  have : Function.support (fun x => nF x * lor D (x - e)) = Set.univ :=
    Set.eq_univ_of_forall fun x => (mul_pos (h0 x) (lor_pos hD _)).ne'
  rw [this]
  simp

/-- Particles and holes. -/
theorem occ_compl (hD : 0 < D) {nF : ℝ → ℝ} (hm : Measurable nF) (h0 : ∀ x, 0 ≤ nF x) (h1 : ∀ x, nF x ≤ 1)
    (e : ℝ) : occ (fun x => 1 - nF x) D e = 1 - occ nF D e := by
  unfold occ
  have h := integral_sub (integrable_lor_sub hD e) (integrable_occ hD hm h0 h1 e)
  rw [integral_lor_sub hD e] at h
  rw [← h]
  congr 1
  funext x
  ring

theorem occ_reflect (nF : ℝ → ℝ) (D e : ℝ) : occ nF D (-e) = occ (fun x => nF (-x)) D e := by
  unfold occ
  rw [← integral_neg_eq_self]
  congr 1
  funext x
  rw [← lor_neg]
  congr 2
  ring

theorem occ_symm (hD : 0 < D) {nF : ℝ → ℝ} (hm : Measurable nF) (h0 : ∀ x, 0 ≤ nF x) (h1 : ∀ x, nF x ≤ 1)
    (hs : ∀ x, nF (-x) = 1 - nF x) (e : ℝ) : occ nF D (-e) = 1 - occ nF D e := by
  rw [occ_reflect, ← occ_compl hD hm h0 h1]
  congr 1
  funext x
  exact hs x

theorem occ_anti (hD : 0 < D) {nF : ℝ → ℝ} (hm : Measurable nF) (h0 : ∀ x, 0 ≤ nF x) (h1 : ∀ x, nF x ≤ 1)
    (ha : ∀ x y, x ≤ y → nF y ≤ nF x) {e e' : ℝ} (h : e ≤ e') : occ nF D e' ≤ occ nF D e := by
  rw [occ_shift, occ_shift]
  exact integral_mono (integrable_occ' hD hm h0 h1 e') (integrable_occ' hD hm h0 h1 e)
    fun x => mul_le_mul_of_nonneg_right (ha _ _ (by linarith)) (lor_pos hD x).le

theorem occ_strictAnti (hD : 0 < D) {nF : ℝ → ℝ} (hm : Measurable nF) (h0 : ∀ x, 0 ≤ nF x) (h1 : ∀ x, nF x ≤ 1)
    (ha : ∀ x y, x < y → nF y < nF x) {e e' : ℝ} (h : e < e') : occ nF D e' < occ nF D e := by
  rw [← sub_pos, occ_shift, occ_shift,
    ← integral_sub (integrable_occ' hD hm h0 h1 e) (integrable_occ' hD hm h0 h1 e')]
  have hp : ∀ x, 0 < nF (x + e) * lor D x - nF (x + e') * lor D x := fun x => by
    rw [← sub_mul]
    exact mul_pos (sub_pos.2 (ha _ _ (by linarith))) (lor_pos hD x)
  rw [integral_pos_iff_support_of_nonneg (fun x => (hp x).le)
    ((integrable_occ' hD hm h0 h1 e).sub (integrable_occ' hD hm h0 h1 e'))]
  have : Function.support (fun x => nF (x + e) * lor D x - nF (x + e') * lor D x) = Set.univ :=
    Set.eq_univ_of_forall fun x => (hp x).ne'
  rw [this]
  simp

theorem arctan_le_self {x : ℝ} (hx : 0 ≤ x) : arctan x ≤ x := by
  have h := Convex.norm_image_sub_le_of_norm_deriv_le (f := Real.arctan) (C := 1) (s := Set.univ) (x := 0) (y := x)
    (fun z _ => Real.differentiableAt_arctan z)
    (fun z _ => by
      rw [Real.deriv_arctan, Real.norm_of_nonneg (by positivity)]
      rw [div_le_one (by positivity)]
      nlinarith [sq_nonneg z]) convex_univ (Set.mem_univ _) (Set.mem_univ _)
  simp only [Real.arctan_zero, sub_zero, one_mul] at h
  rw [Real.norm_of_nonneg hx] at h
  exact (le_abs_self _).trans h

/-- Whatever the distribution, a shift of the level changes the occupation by at most the shift times the maximum of
the Lorentzian. -/
theorem occ_lipschitz_aux (hD : 0 < D) {nF : ℝ → ℝ} (hm : Measurable nF) (h0 : ∀ x, 0 ≤ nF x) (h1 : ∀ x, nF x ≤ 1)
    {e e' : ℝ} (h : e ≤ e') : occ nF D e - occ nF D e' ≤ (e' - e) / (π * D) := by
  have hpi := Real.pi_pos
  set m := (e + e') / 2 with hmid
  have hi := (integrable_lor_sub hD e).sub (integrable_lor_sub hD e')
  have hle : occ nF D e - occ nF D e' ≤ ∫ x in Set.Iic m, (lor D (x - e) - lor D (x - e')) := by
    unfold occ
    rw [← integral_sub (integrable_occ hD hm h0 h1 e) (integrable_occ hD hm h0 h1 e'),
      ← integral_indicator measurableSet_Iic]
    refine integral_mono ((integrable_occ hD hm h0 h1 e).sub (integrable_occ hD hm h0 h1 e'))
      (hi.indicator measurableSet_Iic) fun x => ?_
    have key : (x - e') ^ 2 - (x - e) ^ 2 = 2 * (e' - e) * (m - x) := by rw [hmid]; ring
    have mono : ∀ {a b : ℝ}, a ^ 2 ≤ b ^ 2 → lor D b ≤ lor D a := by
      intro a b hab
      unfold lor
      have : 0 < a ^ 2 + D ^ 2 := by positivity
      exact mul_le_mul_of_nonneg_left (div_le_div_of_nonneg_left hD.le this (by linarith)) (by positivity)
    simp only [← mul_sub]
    have hn := h0 x
    have hn1 := h1 x
    by_cases hx : x ≤ m
    · rw [Set.indicator_of_mem (show x ∈ Set.Iic m from hx)]
      have hd : 0 ≤ lor D (x - e) - lor D (x - e') := by
        rw [sub_nonneg]
        exact mono (by nlinarith)
      nlinarith
    · rw [Set.indicator_of_notMem (show x ∉ Set.Iic m from hx)]
      have hd : lor D (x - e) ≤ lor D (x - e') := by
        exact mono (by nlinarith [not_le.1 hx])
      exact mul_nonpos_of_nonneg_of_nonpos hn (by linarith)
  refine hle.trans ?_
  rw [integral_sub (integrable_lor_sub hD e).integrableOn (integrable_lor_sub hD e').integrableOn,
    integral_Iic_lor hD, integral_Iic_lor hD]
  have e1 : (m - e) / D = (e' - e) / (2 * D) := by rw [hmid]; field_simp; ring
  have e2 : (m - e') / D = -((e' - e) / (2 * D)) := by rw [hmid]; field_simp; ring
  rw [e1, e2, arctan_neg]
  have hb := arctan_le_self (x := (e' - e) / (2 * D)) (div_nonneg (by linarith) (by positivity))
  have : 1 / 2 + 1 / π * arctan ((e' - e) / (2 * D)) - (1 / 2 + 1 / π * -arctan ((e' - e) / (2 * D)))
      = 2 / π * arctan ((e' - e) / (2 * D)) := by ring
  rw [this]
  calc 2 / π * arctan ((e' - e) / (2 * D)) ≤ 2 / π * ((e' - e) / (2 * D)) := by gcongr
    _ = (e' - e) / (π * D) := by field_simp

theorem occ_lipschitz (hD : 0 < D) {nF : ℝ → ℝ} (hm : Measurable nF) (h0 : ∀ x, 0 ≤ nF x) (h1 : ∀ x, nF x ≤ 1)
    (e e' : ℝ) : |occ nF D e - occ nF D e'| ≤ |e - e'| / (π * D) := by
  have c0 : ∀ x, 0 ≤ 1 - nF x := fun x => by linarith [h1 x]
  have c1 : ∀ x, 1 - nF x ≤ 1 := fun x => by linarith [h0 x]
  have cm : Measurable fun x => 1 - nF x := measurable_const.sub hm
  have main : ∀ {e e' : ℝ}, e ≤ e' → |occ nF D e - occ nF D e'| ≤ (e' - e) / (π * D) := by
    intro e e' h
    rw [abs_le]
    have a := occ_lipschitz_aux hD hm h0 h1 h
    have b := occ_lipschitz_aux hD cm c0 c1 h
    rw [occ_compl hD hm h0 h1, occ_compl hD hm h0 h1] at b
    constructor <;> linarith
  rcases le_total e e' with h | h
  · rw [abs_of_nonpos (a := e - e') (by linarith), neg_sub]; exact main h
  · rw [abs_of_nonneg (a := e - e') (by linarith), abs_sub_comm]; exact main h

end Verif.Filling
