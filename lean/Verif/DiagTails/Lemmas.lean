import Verif.DiagTails.Model
import Verif.Tails.Props
import Mathlib.Analysis.SpecialFunctions.Trigonometric.ArctanDeriv

namespace Verif.DiagTails
open Complex MeasureTheory Filter Topology Verif.Tails

theorem log_shift_tendsto (α β : ℂ) :
    Tendsto (fun v : ℝ => log ((v : ℂ) + α) - log ((v : ℂ) + β)) atTop (𝓝 0) := by
  have ht : Tendsto (fun v : ℝ => log (((v : ℂ) + α) / ((v : ℂ) + β))) atTop (𝓝 (log 1)) := by
    refine Tendsto.clog ?_ (by simp)
    have : Tendsto (fun v : ℝ => 1 + (α - β) * ((v : ℂ) + β)⁻¹) atTop (𝓝 (1 + (α - β) * 0)) :=
      ((tendsto_inv_add β).const_mul _).const_add _
    rw [mul_zero, add_zero] at this
    refine this.congr' ?_
    filter_upwards [eventually_ge_atTop (1 - β.re)] with v hv
    have n2 := Tails.ne_zero_of_re_pos (re_pos (a := 1 - β.re) (α := β) (by linarith) hv)
    field_simp
    ring
  rw [log_one] at ht
  refine ht.congr' ?_
  filter_upwards [eventually_ge_atTop (1 - β.re), eventually_ge_atTop (1 - α.re)] with v hb ha
  have h1 := re_pos (a := 1 - α.re) (α := α) (by linarith) ha
  have h2 := re_pos (a := 1 - β.re) (α := β) (by linarith) hb
  have g1 := abs_lt.mp (abs_arg_lt_pi_div_two_iff.mpr (.inl h1))
  have g2 := abs_lt.mp (abs_arg_lt_pi_div_two_iff.mpr (.inl h2))
  have hx : exp (log ((v : ℂ) + α) - log ((v : ℂ) + β)) = ((v : ℂ) + α) / ((v : ℂ) + β) := by
    rw [exp_sub, exp_log (Tails.ne_zero_of_re_pos h1), exp_log (Tails.ne_zero_of_re_pos h2)]
  rw [← hx, log_exp]
  · rw [sub_im, log_im, log_im]; linarith
  · rw [sub_im, log_im, log_im]; linarith

/-- Quotient of numbers in the right half plane. -/
theorem log_quot {z w : ℂ} (hz : 0 < z.re) (hw : 0 < w.re) : log (z / w) = log z - log w := by
  have g1 := abs_lt.mp (abs_arg_lt_pi_div_two_iff.mpr (.inl hz))
  have g2 := abs_lt.mp (abs_arg_lt_pi_div_two_iff.mpr (.inl hw))
  have hx : exp (log z - log w) = z / w := by
    rw [exp_sub, exp_log (Tails.ne_zero_of_re_pos hz), exp_log (Tails.ne_zero_of_re_pos hw)]
  rw [← hx, log_exp]
  · rw [sub_im, log_im, log_im]; linarith
  · rw [sub_im, log_im, log_im]; linarith

theorem integral_inv_shift {a R : ℝ} {α : ℂ} (ha : 0 < a + α.re) (hR : a ≤ R) :
    ∫ v in a..R, 1 / ((v : ℂ) + α) = log ((R : ℂ) + α) - log ((a : ℂ) + α) := by
  apply intervalIntegral.integral_eq_sub_of_hasDerivAt (f := fun v : ℝ => log ((v : ℂ) + α))
  · intro v hv
    rw [Set.uIcc_of_le hR] at hv
    exact (hasDerivAt_shift α v).clog_real (.inl (re_pos ha hv.1))
  · apply ContinuousOn.intervalIntegrable
    rw [Set.uIcc_of_le hR]
    exact ContinuousOn.div continuousOn_const (cont_shift α).continuousOn fun v hv =>
      Tails.ne_zero_of_re_pos (re_pos ha hv.1)

/-- Single poles: the two sides diverge, their sum over symmetric boxes does not. -/
theorem tail_single {f : ℝ → ℂ} {vmin vmax : ℝ} {c α β : ℂ} (ha : 0 < vmax + α.re) (hb : 0 < -vmin + β.re)
    (hu : ∀ v, vmax ≤ v → f v = c * (1 / ((v : ℂ) + α)))
    (hl : ∀ v, -vmin ≤ v → f (-v) = -c * (1 / ((v : ℂ) + β))) :
    IsTail f vmin vmax (c * (log (((-vmin : ℝ) : ℂ) + β) - log ((vmax : ℂ) + α))) := by
  have key : Tendsto (fun R : ℝ => c * (log (((-vmin : ℝ) : ℂ) + β) - log ((vmax : ℂ) + α))
      + c * (log ((R : ℂ) + α) - log ((R : ℂ) + β))) atTop
      (𝓝 (c * (log (((-vmin : ℝ) : ℂ) + β) - log ((vmax : ℂ) + α)) + c * 0)) :=
    ((log_shift_tendsto α β).const_mul c).const_add _
  rw [mul_zero, add_zero] at key
  refine key.congr' ?_
  filter_upwards [eventually_ge_atTop vmax, eventually_ge_atTop (-vmin)] with R h1 h2
  have e1 : ∫ v in vmax..R, f v = c * ∫ v in vmax..R, 1 / ((v : ℂ) + α) := by
    rw [← intervalIntegral.integral_const_mul]
    apply intervalIntegral.integral_congr
    intro v hv
    rw [Set.uIcc_of_le h1] at hv
    exact hu v hv.1
  have e2 : ∫ v in (-R)..vmin, f v = -c * ∫ v in (-vmin)..R, 1 / ((v : ℂ) + β) := by
    have := intervalIntegral.integral_comp_neg (a := -vmin) (b := R) f
    rw [neg_neg] at this
    rw [← this, ← intervalIntegral.integral_const_mul]
    apply intervalIntegral.integral_congr
    intro v hv
    rw [Set.uIcc_of_le h2] at hv
    exact hl v hv.1
  rw [e1, e2, integral_inv_shift ha h1, integral_inv_shift hb h2]
  ring

/-- Double poles. -/
theorem tail_square {f : ℝ → ℂ} {vmin vmax : ℝ} {c d α β : ℂ} (ha : 0 < vmax + α.re) (hb : 0 < -vmin + β.re)
    (hu : ∀ v, vmax ≤ v → f v = c * (1 / (((v : ℂ) + α) * ((v : ℂ) + α))))
    (hl : ∀ v, -vmin ≤ v → f (-v) = d * (1 / (((v : ℂ) + β) * ((v : ℂ) + β)))) :
    IsTail f vmin vmax (d * (1 / (((-vmin : ℝ) : ℂ) + β)) + c * (1 / ((vmax : ℂ) + α))) := by
  refine isTail_of hu hl ?_ ?_
  · have := (upper_square ha).const_mul c
    refine this.congr fun R => ?_
    rw [intervalIntegral.integral_const_mul]
  · have := (upper_square hb).const_mul d
    refine this.congr fun R => ?_
    rw [intervalIntegral.integral_const_mul]

/-- A Lorentzian. -/
theorem upper_lorentz {a e Δ : ℝ} (hΔ : 0 < Δ) :
    Tendsto (fun R : ℝ => ∫ v in a..R, ((Δ / ((v - e) * (v - e) + Δ * Δ) : ℝ) : ℂ)) atTop
      (𝓝 ((Real.pi / 2 - Real.arctan ((a - e) / Δ) : ℝ) : ℂ)) := by
  have hp : ∀ v : ℝ, 0 < (v - e) * (v - e) + Δ * Δ := fun v => by
    nlinarith [mul_self_nonneg (v - e), mul_pos hΔ hΔ]
  have key := upper_of_deriv (f := fun v : ℝ => ((Δ / ((v - e) * (v - e) + Δ * Δ) : ℝ) : ℂ))
    (F := fun v : ℝ => ((Real.arctan ((v - e) / Δ) : ℝ) : ℂ)) (a := a) (L := ((Real.pi / 2 : ℝ) : ℂ)) ?_ ?_ ?_
  · convert key using 2
    push_cast; ring
  · intro v _
    have h1 : HasDerivAt (fun v : ℝ => (v - e) / Δ) (1 / Δ) v := ((hasDerivAt_id v).sub_const e).div_const Δ
    have h2 := h1.arctan
    have h3 := h2.ofReal_comp
    refine h3.congr_deriv ?_
    congr 1
    have := (hp v).ne'
    have hn : Δ ^ 2 + (v - e) ^ 2 ≠ 0 := by intro h; apply this; linear_combination h
    field_simp
    ring
  · apply Continuous.continuousOn
    refine continuous_ofReal.comp (Continuous.div continuous_const (by fun_prop) fun v => (hp v).ne')
  · refine (continuous_ofReal.tendsto _).comp ?_
    have h1 : Tendsto (fun v : ℝ => (v - e) / Δ) atTop atTop :=
      (tendsto_atTop_add_const_right _ (-e) tendsto_id).atTop_div_const hΔ
    exact (Real.tendsto_arctan_atTop.mono_right nhdsWithin_le_nhds).comp h1

/-- Only the values outside the box matter. -/
theorem isTail_congr {f g : ℝ → ℂ} {vmin vmax : ℝ} {x : ℂ} (h : IsTail f vmin vmax x)
    (e : ∀ v, v ≤ vmin ∨ vmax ≤ v → f v = g v) : IsTail g vmin vmax x := by
  refine Tendsto.congr' ?_ h
  filter_upwards [eventually_ge_atTop vmax, eventually_ge_atTop (-vmin)] with R h1 h2
  congr 1
  · apply intervalIntegral.integral_congr
    intro v hv
    rw [Set.uIcc_of_le (by linarith)] at hv
    exact e v (.inl hv.2)
  · apply intervalIntegral.integral_congr
    intro v hv
    rw [Set.uIcc_of_le h1] at hv
    exact e v (.inr hv.1)

theorem isTail_add {f g : ℝ → ℂ} {vmin vmax : ℝ} {x y : ℂ} (hf : IsTail f vmin vmax x) (hg : IsTail g vmin vmax y)
    (f1 : ContinuousOn f (Set.Iic vmin)) (f2 : ContinuousOn f (Set.Ici vmax))
    (g1 : ContinuousOn g (Set.Iic vmin)) (g2 : ContinuousOn g (Set.Ici vmax)) :
    IsTail (fun v => f v + g v) vmin vmax (x + y) := by
  refine Tendsto.congr' ?_ (Tendsto.add hf hg)
  filter_upwards [eventually_ge_atTop vmax, eventually_ge_atTop (-vmin)] with R h1 h2
  have s1 : Set.uIcc (-R) vmin ⊆ Set.Iic vmin := by
    rw [Set.uIcc_of_le (by linarith)]; exact Set.Icc_subset_Iic_self
  have s2 : Set.uIcc vmax R ⊆ Set.Ici vmax := by
    rw [Set.uIcc_of_le h1]; exact Set.Icc_subset_Ici_self
  rw [intervalIntegral.integral_add ((f1.mono s1).intervalIntegrable) ((g1.mono s1).intervalIntegrable),
    intervalIntegral.integral_add ((f2.mono s2).intervalIntegrable) ((g2.mono s2).intervalIntegrable)]
  ring

end Verif.DiagTails
