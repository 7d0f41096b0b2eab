import Verif.Heredity.Analytic
import Mathlib.Analysis.Complex.PhragmenLindelof
import Mathlib.Analysis.Calculus.ParametricIntegral
import Mathlib.Analysis.Calculus.FDeriv.Measurable
import Mathlib.Analysis.Complex.Liouville

/-! Superpositions of retarded functions and their sign in the upper half-plane. -/
namespace Verif.Causal
open MeasureTheory Complex Filter Topology Set Verif.Heredity

/-- The decay of a retarded function at all points close to one with real part `v`. -/
theorem near {F : ℂ → ℂ} {C : ℝ} (h4 : ∀ z, 0 ≤ z.im → ‖F z‖ * (1 + ‖z‖) ≤ C) {ζ ζ0 : ℂ} (hζ : 0 ≤ ζ.im) (hd : ‖ζ - ζ0‖ ≤ 1) (x : ℝ) :
    ‖F (ζ - x)‖ ≤ 2 * C * (1 + |ζ0.re - x|)⁻¹ := by
  have k := h4 (ζ - x) (by simpa using hζ)
  have t : |ζ0.re - x| ≤ ‖ζ - x‖ + 1 := by
    have a : |(ζ0 - x).re| ≤ ‖ζ0 - x‖ := Complex.abs_re_le_norm _
    have b : ‖ζ0 - x‖ ≤ ‖ζ - x‖ + ‖ζ - ζ0‖ := by
      have := norm_sub_le (ζ - x) (ζ - ζ0)
      simpa using this
    simp only [sub_re, ofReal_re] at a
    linarith
  rw [← div_eq_mul_inv, le_div_iff₀ (by positivity)]
  have n0 := norm_nonneg (F (ζ - x))
  have m0 := norm_nonneg (ζ - x)
  nlinarith

/-- A superposition of shifted copies of a retarded function continues to the upper half-plane. -/
theorem upper_integral {α : Type*} [MeasurableSpace α] {μ : Measure α} {k : α → ℂ} {l : α → ℝ} {B : ℝ} {g : ℝ → ℂ}
    (hk : Measurable k) (hl : Measurable l) (hi : ∀ v : ℝ, Integrable (fun a => ‖k a‖ * (1 + |v - l a|)⁻¹) μ)
    (hB : ∀ v : ℝ, ∫ a, ‖k a‖ * (1 + |v - l a|)⁻¹ ∂μ ≤ B) (hg : Retarded g) : Upper fun v => ∫ a, k a * g (v - l a) ∂μ := by
  obtain ⟨F, C, h1, h2, h3, h4⟩ := hg
  have C0 : 0 ≤ C := (by positivity : (0:ℝ) ≤ ‖F 0‖ * (1 + ‖(0:ℂ)‖)).trans (h4 0 (by simp))
  have meas : ∀ ζ : ℂ, 0 ≤ ζ.im → AEStronglyMeasurable (fun a => k a * F (ζ - l a)) μ := by
    intro ζ hζ
    have c : Continuous fun x : ℝ => F (ζ - x) :=
      h1.comp_continuous (continuous_const.sub continuous_ofReal) fun x => by simpa using hζ
    exact (hk.mul (c.measurable.comp hl)).aestronglyMeasurable
  have bnd : ∀ ζ ζ0 : ℂ, 0 ≤ ζ.im → ‖ζ - ζ0‖ ≤ 1 → ∀ a, ‖k a * F (ζ - l a)‖ ≤ 2 * C * (‖k a‖ * (1 + |ζ0.re - l a|)⁻¹) := by
    intro ζ ζ0 hζ hd a
    rw [norm_mul]
    have := mul_le_mul_of_nonneg_left (near h4 hζ hd (l a)) (norm_nonneg (k a))
    linarith
  refine ⟨fun ζ => ∫ a, k a * F (ζ - l a) ∂μ, 2 * C * B, ?_, ?_, fun x => ?_, fun ζ hζ => ?_⟩
  · intro ζ0 hζ0
    refine continuousWithinAt_of_dominated (bound := fun a => 2 * C * (‖k a‖ * (1 + |ζ0.re - l a|)⁻¹)) ?_ ?_ ((hi _).const_mul _) ?_
    · filter_upwards [self_mem_nhdsWithin] with ζ hζ using meas ζ hζ
    · filter_upwards [self_mem_nhdsWithin, mem_nhdsWithin_of_mem_nhds (Metric.closedBall_mem_nhds ζ0 one_pos)] with ζ hζ hd
      exact Eventually.of_forall (bnd ζ ζ0 hζ (by simpa [dist_eq_norm] using hd))
    · refine Eventually.of_forall fun a => continuousWithinAt_const.mul ?_
      have c : ContinuousWithinAt F {z | 0 ≤ z.im} (ζ0 - l a) := h1 _ (by simpa using hζ0)
      exact c.comp (t := {z | 0 ≤ z.im}) (f := fun ζ : ℂ => ζ - l a) (by fun_prop) fun z hz => by simpa using hz
  · intro ζ0 hζ0
    set r : ℝ := min ζ0.im 1 / 4 with hr
    have hr0 : 0 < r := by
      have : 0 < ζ0.im := hζ0
      positivity
    have hr1 : 4 * r ≤ 1 := by rw [hr]; linarith [min_le_right ζ0.im 1]
    have hr2 : 4 * r ≤ ζ0.im := by rw [hr]; linarith [min_le_left ζ0.im 1]
    have inside : ∀ z : ℂ, ‖z - ζ0‖ ≤ 2 * r → 0 < z.im := by
      intro z hz
      have := (Complex.abs_im_le_norm (z - ζ0)).trans hz
      rw [sub_im] at this
      have := (abs_le.1 this).1
      linarith
    have df : ∀ z : ℂ, 0 < z.im → ∀ x : ℝ, DifferentiableAt ℂ F (z - x) := fun z hz x =>
      h2.differentiableAt ((isOpen_lt continuous_const continuous_im).mem_nhds (by simpa using hz))
    have key := hasDerivAt_integral_of_dominated_loc_of_deriv_le (μ := μ) (𝕜 := ℂ) (F := fun ζ a => k a * F (ζ - l a))
      (F' := fun ζ a => k a * deriv F (ζ - l a)) (bound := fun a => 2 * C / r * (‖k a‖ * (1 + |ζ0.re - l a|)⁻¹)) (x₀ := ζ0)
      (s := Metric.ball ζ0 r) (Metric.ball_mem_nhds ζ0 hr0)
      (by
        filter_upwards [Metric.ball_mem_nhds ζ0 hr0] with ζ hζ
        refine meas ζ (inside ζ ?_).le
        rw [Metric.mem_ball, dist_eq_norm] at hζ
        linarith)
      (((hi ζ0.re).const_mul (2 * C)).mono' (meas ζ0 (le_of_lt hζ0)) (Eventually.of_forall (bnd ζ0 ζ0 (le_of_lt hζ0) (by simp))))
      (by
        have c : Measurable fun x : ℝ => deriv F (ζ0 - x) := (measurable_deriv F).comp (by fun_prop)
        exact (hk.mul (c.comp hl)).aestronglyMeasurable)
      (Eventually.of_forall fun a ζ hζ => by
        rw [Metric.mem_ball, dist_eq_norm] at hζ
        have cauchy : ‖deriv F (ζ - l a)‖ ≤ (2 * C * (1 + |ζ0.re - l a|)⁻¹) / r := by
          have near' : ∀ w : ℂ, ‖w - (ζ - l a)‖ ≤ r → ‖w + l a - ζ0‖ ≤ 2 * r := by
            intro w hw
            have e : w + l a - ζ0 = (w - (ζ - l a)) + (ζ - ζ0) := by ring
            rw [e]
            refine (norm_add_le _ _).trans ?_
            linarith
          refine Complex.norm_deriv_le_of_forall_mem_sphere_norm_le hr0 ?_ ?_
          · refine DifferentiableOn.diffContOnCl fun w hw => ?_
            rw [closure_ball _ hr0.ne', Metric.mem_closedBall, dist_eq_norm] at hw
            have := df (w + l a) (inside _ (near' w hw)) (l a)
            rw [add_sub_cancel_right] at this
            exact this.differentiableWithinAt
          · intro w hw
            rw [mem_sphere_iff_norm] at hw
            have n := near' w hw.le
            have := near h4 (ζ := w + l a) (ζ0 := ζ0) (inside _ n).le (by linarith) (l a)
            rwa [add_sub_cancel_right] at this
        rw [norm_mul]
        calc ‖k a‖ * ‖deriv F (ζ - l a)‖ ≤ ‖k a‖ * ((2 * C * (1 + |ζ0.re - l a|)⁻¹) / r) :=
              mul_le_mul_of_nonneg_left cauchy (norm_nonneg _)
          _ = _ := by ring)
      ((hi _).const_mul _)
      (Eventually.of_forall fun a ζ hζ => by
        rw [Metric.mem_ball, dist_eq_norm] at hζ
        have d := (df ζ (inside ζ (by linarith)) (l a)).hasDerivAt
        exact (d.comp_sub_const ζ (l a : ℂ)).const_mul (k a))
    exact key.2.differentiableAt.differentiableWithinAt
  · refine integral_congr_ae (Eventually.of_forall fun a => ?_)
    have := h3 (x - l a)
    simp only [← this]; push_cast; rfl
  · refine (norm_integral_le_integral_norm _).trans ?_
    have I := (hi ζ.re).const_mul (2 * C)
    have b := bnd ζ ζ hζ (by simp)
    refine (integral_mono_of_nonneg (Eventually.of_forall fun a => norm_nonneg _) I (Eventually.of_forall b)).trans ?_
    rw [integral_const_mul]
    exact mul_le_mul_of_nonneg_left (hB _) (by positivity)

/-- The sign of the imaginary part extends from the real axis into the upper half-plane. -/
theorem im_nonpos {F : ℂ → ℂ} {C : ℝ} (h1 : ContinuousOn F {z | 0 ≤ z.im}) (h2 : DifferentiableOn ℂ F {z | 0 < z.im})
    (h4 : ∀ z, 0 ≤ z.im → ‖F z‖ ≤ C) (h0 : ∀ x : ℝ, (F x).im ≤ 0) {z : ℂ} (hz : 0 ≤ z.im) : (F z).im ≤ 0 := by
  set f : ℂ → ℂ := fun u => exp (-(I * F (I * u))) with hf
  have val : ∀ u, ‖f u‖ = Real.exp (F (I * u)).im := by
    intro u
    rw [hf]; simp only [norm_exp]; simp
  have im : ∀ u : ℂ, (I * u).im = u.re := fun u => by simp
  have le : ∀ u : ℂ, 0 ≤ u.re → ‖f u‖ ≤ Real.exp C := by
    intro u hu
    rw [val]
    exact Real.exp_le_exp.2 ((le_abs_self _).trans ((Complex.abs_im_le_norm _).trans (h4 _ (by rwa [im]))))
  have mul : Differentiable ℂ fun u : ℂ => I * u := by fun_prop
  have P := PhragmenLindelof.right_half_plane_of_bounded_on_real (f := f) (C := 1) (z := -(I * z))
    (by
      refine ⟨?_, ?_⟩
      · exact ((h2.comp mul.differentiableOn fun u hu => by simpa [im] using hu).const_mul I).neg.cexp
      · have : closure {z : ℂ | 0 < z.re} = {z | 0 ≤ z.re} := Complex.closure_setOfPred_lt_re 0
        rw [this]
        exact ((continuousOn_const.mul (h1.comp mul.continuous.continuousOn fun u hu => by simpa [im] using hu)).neg).cexp)
    ⟨1, by norm_num, 0, by
      refine Asymptotics.IsBigO.of_bound (Real.exp C) ?_
      refine eventually_inf_principal.2 (Eventually.of_forall fun u hu => ?_)
      simpa using le u (le_of_lt hu)⟩
    (isBoundedUnder_of_eventually_le (a := Real.exp C) (by
      filter_upwards [eventually_ge_atTop 0] with x hx
      exact le x (by simpa using hx)))
    (fun x => by
      rw [val]
      have e : I * ((x : ℂ) * I) = ((-x : ℝ) : ℂ) := by
        push_cast
        rw [mul_left_comm, I_mul_I]; ring
      rw [e]
      exact Real.exp_le_one_iff.2 (h0 _))
    (by simpa using hz)
  rw [val] at P
  have e : I * -(I * z) = z := by
    rw [mul_neg, ← mul_assoc, I_mul_I]; ring
  rw [e] at P
  exact Real.exp_le_one_iff.1 P

end Verif.Causal
