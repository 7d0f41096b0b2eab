import Verif.Filling.Lorentz
import Verif.Filling.Tanh
import Mathlib.Analysis.SpecialFunctions.Log.Deriv

/-
The integral of a Lorentzian with one term of the expansion of the hyperbolic tangent.
-/
namespace Verif.Filling

open Real MeasureTheory Filter Topology

variable {D : ℝ}

theorem quot_bound {n : ℝ} (hn : 0 < n) (x : ℝ) : |x / (x ^ 2 + n ^ 2)| ≤ 1 / (2 * n) := by
  rw [abs_div, abs_of_pos (a := x ^ 2 + n ^ 2) (by positivity), div_le_div_iff₀ (by positivity) (by positivity)]
  nlinarith [sq_nonneg (|x| - n), sq_abs x]

theorem tendsto_abs_inv : Tendsto (fun x : ℝ => |x|⁻¹) atTop (𝓝 0) ∧ Tendsto (fun x : ℝ => |x|⁻¹) atBot (𝓝 0) :=
  ⟨tendsto_inv_atTop_zero.comp tendsto_abs_atTop_atTop, tendsto_inv_atTop_zero.comp tendsto_abs_atBot_atTop⟩

/-- The quotient of two quadratic polynomials with the same leading coefficient tends to one. -/
theorem tendsto_quot {l : Filter ℝ} (hl : Tendsto (fun x : ℝ => |x|⁻¹) l (𝓝 0)) (hev : ∀ᶠ x : ℝ in l, x ≠ 0) {n : ℝ} (hn : 0 < n) (e : ℝ) :
    Tendsto (fun x : ℝ => ((x - e) ^ 2 + D ^ 2) / (x ^ 2 + n ^ 2)) l (𝓝 1) := by
  have h1 : Tendsto (fun x : ℝ => x / (x ^ 2 + n ^ 2)) l (𝓝 0) := by
    refine squeeze_zero_norm (fun x => ?_) hl
    rw [norm_div, Real.norm_eq_abs, Real.norm_of_nonneg (by positivity)]
    rcases eq_or_ne x 0 with rfl | hx
    · simp
    have hx' : 0 < |x| := abs_pos.2 hx
    rw [div_le_iff₀ (by positivity), ← sq_abs]
    field_simp
    nlinarith [sq_nonneg n]
  have h2 : Tendsto (fun x : ℝ => 1 / (x ^ 2 + n ^ 2)) l (𝓝 0) := by
    have h3 : Tendsto (fun x : ℝ => 1 / (2 * n) * |x|⁻¹) l (𝓝 0) := by simpa using hl.const_mul (1 / (2 * n))
    refine squeeze_zero_norm' ?_ h3
    filter_upwards [hev] with x hx
    have hx' : 0 < |x| := abs_pos.2 hx
    rw [Real.norm_of_nonneg (by positivity), div_le_iff₀ (by positivity), ← sq_abs]
    field_simp
    nlinarith [sq_nonneg (|x| - n)]
  have h4 : Tendsto (fun x : ℝ => 1 + (-2 * e) * (x / (x ^ 2 + n ^ 2)) + (e ^ 2 + D ^ 2 - n ^ 2) * (1 / (x ^ 2 + n ^ 2)))
      l (𝓝 (1 + (-2 * e) * 0 + (e ^ 2 + D ^ 2 - n ^ 2) * 0)) :=
    ((h1.const_mul _).const_add 1).add (h2.const_mul _)
  simp only [mul_zero, add_zero] at h4
  refine h4.congr fun x => ?_
  have : x ^ 2 + n ^ 2 ≠ 0 := by positivity
  field_simp
  ring

theorem integrable_term (hD : 0 < D) {n : ℝ} (hn : 0 < n) (e : ℝ) :
    Integrable fun x => lor D (x - e) * (x / (x ^ 2 + n ^ 2)) := by
  have hc : Continuous fun x : ℝ => x / (x ^ 2 + n ^ 2) :=
    continuous_id.div (by fun_prop) fun x => by positivity
  have := (integrable_lor_sub hD e).bdd_mul (c := 1 / (2 * n)) hc.aestronglyMeasurable
    (ae_of_all _ fun x => by rw [Real.norm_eq_abs]; exact quot_bound hn x)
  simpa [mul_comm] using this

/-- A Lorentzian of half width `D` at `e` seen through the kernel of half width `n`. -/
theorem convolve (hD : 0 < D) {n : ℝ} (hn : 0 < n) (e : ℝ) :
    ∫ x, lor D (x - e) * (x / (x ^ 2 + n ^ 2)) = e / ((n + D) ^ 2 + e ^ 2) := by
  have hpi := Real.pi_pos
  rcases eq_or_ne e 0 with rfl | he
  · rw [zero_div]
    have h := integral_neg_eq_self (fun x => lor D (x - 0) * (x / (x ^ 2 + n ^ 2))) volume
    have h2 : (fun x : ℝ => lor D (-x - 0) * (-x / ((-x) ^ 2 + n ^ 2))) =
        fun x => -(lor D (x - 0) * (x / (x ^ 2 + n ^ 2))) := by
      funext x
      rw [sub_zero, sub_zero, lor_neg, neg_sq]
      ring
    rw [h2, integral_neg] at h
    linarith
  have he2 : 0 < e ^ 2 := by positivity
  set q := n ^ 2 - e ^ 2 - D ^ 2 with hq
  have hden : 0 < q ^ 2 + 4 * e ^ 2 * n ^ 2 := by positivity
  set k := D / (q ^ 2 + 4 * e ^ 2 * n ^ 2) with hk
  have hkD : k * (q ^ 2 + 4 * e ^ 2 * n ^ 2) = D := by rw [hk]; field_simp
  set a := k * q with hadef
  set b := k * e * (n ^ 2 + e ^ 2 + D ^ 2) / D with hbdef
  set c := 2 * k * e * n with hcdef
  have hbD : b * D = k * e * (n ^ 2 + e ^ 2 + D ^ 2) := by rw [hbdef]; field_simp
  let F : ℝ → ℝ := fun x => 1 / π * (a / 2 * Real.log (((x - e) ^ 2 + D ^ 2) / (x ^ 2 + n ^ 2)) +
    b * arctan ((x - e) / D) - c * arctan ((x - 0) / n))
  have hF : ∀ x, HasDerivAt F (lor D (x - e) * (x / (x ^ 2 + n ^ 2))) x := by
    intro x
    have p1 : 0 < (x - e) ^ 2 + D ^ 2 := by positivity
    have p2 : 0 < x ^ 2 + n ^ 2 := by positivity
    have d1 : HasDerivAt (fun x : ℝ => (x - e) ^ 2 + D ^ 2) (2 * (x - e)) x := by
      have := (((hasDerivAt_id' x).sub_const e).pow 2).add_const (D ^ 2)
      simpa using this
    have d2 : HasDerivAt (fun x : ℝ => x ^ 2 + n ^ 2) (2 * x) x := by
      have := ((hasDerivAt_id' x).pow 2).add_const (n ^ 2)
      simpa using this
    have d3 := (d1.div d2 p2.ne').log (div_pos p1 p2).ne'
    have d4 := (((d3.const_mul (a / 2)).add ((hasDerivAt_arctan_div hD.ne' e x).const_mul b)).sub
      ((hasDerivAt_arctan_div hn.ne' 0 x).const_mul c)).const_mul (1 / π)
    refine d4.congr_deriv ?_
    unfold lor
    rw [mul_assoc (1 / π) (D / ((x - e) ^ 2 + D ^ 2))]
    congr 1
    have key : D * x = (a * (x - e) + b * D) * (x ^ 2 + n ^ 2) - (a * x + c * n) * ((x - e) ^ 2 + D ^ 2) := by
      rw [hbD, hadef, hcdef]
      rw [hq] at hkD ⊢
      linear_combination (-x) * hkD
    have e1 : (((fun x : ℝ => (x - e) ^ 2 + D ^ 2) / fun x => x ^ 2 + n ^ 2 : ℝ → ℝ)) x =
      ((x - e) ^ 2 + D ^ 2) / (x ^ 2 + n ^ 2) := rfl
    have e2 : D / ((x - e) ^ 2 + D ^ 2) * (x / (x ^ 2 + n ^ 2)) =
        (D * x) / (((x - e) ^ 2 + D ^ 2) * (x ^ 2 + n ^ 2)) := by field_simp
    rw [e1, sub_zero, e2, key]
    field_simp
    ring
  have top : Tendsto F atTop (𝓝 (1 / π * (a / 2 * 0 + b * (π / 2) - c * (π / 2)))) := by
    have h1 := (Real.continuousAt_log one_ne_zero).tendsto.comp (tendsto_quot (D := D) tendsto_abs_inv.1 (eventually_ne_atTop 0) hn e)
    rw [Real.log_one] at h1
    exact (((h1.const_mul (a / 2)).add ((tendsto_arctan_div_atTop hD e).const_mul b)).sub
      ((tendsto_arctan_div_atTop hn 0).const_mul c)).const_mul _
  have bot : Tendsto F atBot (𝓝 (1 / π * (a / 2 * 0 + b * (-(π / 2)) - c * (-(π / 2))))) := by
    have h1 := (Real.continuousAt_log one_ne_zero).tendsto.comp (tendsto_quot (D := D) tendsto_abs_inv.2 (eventually_ne_atBot 0) hn e)
    rw [Real.log_one] at h1
    exact (((h1.const_mul (a / 2)).add ((tendsto_arctan_div_atBot hD e).const_mul b)).sub
      ((tendsto_arctan_div_atBot hn 0).const_mul c)).const_mul _
  rw [integral_of_hasDerivAt_of_tendsto hF (integrable_term hD hn e) bot top]
  have e1 : 1 / π * (a / 2 * 0 + b * (π / 2) - c * (π / 2)) - 1 / π * (a / 2 * 0 + b * (-(π / 2)) - c * (-(π / 2))) =
      b - c := by field_simp; ring
  rw [e1, eq_div_iff (by positivity)]
  have hDne := hD.ne'
  have : (b - c) * D * ((n + D) ^ 2 + e ^ 2) = e * D := by
    rw [sub_mul, hbD, hcdef]
    rw [hq] at hkD
    linear_combination e * hkD
  have h3 : ((b - c) * ((n + D) ^ 2 + e ^ 2)) * D = e * D := by linarith
  exact mul_right_cancel₀ hDne h3

end Verif.Filling
