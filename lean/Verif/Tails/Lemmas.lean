import Verif.Tails.Model
import Verif.Tails.Spec
import Mathlib.MeasureTheory.Integral.IntervalIntegral.FundThmCalculus
import Mathlib.Analysis.SpecialFunctions.Complex.LogDeriv
import Mathlib.Analysis.SpecialFunctions.Trigonometric.Inverse
import Mathlib.Analysis.Calculus.Deriv.Inv
import Mathlib.Analysis.SpecificLimits.Normed
import Mathlib.Tactic.FieldSimp
import Mathlib.Tactic.Linarith

namespace Verif.Tails
open Complex MeasureTheory Filter Topology

/-- Integral up to infinity from an antiderivative. -/
theorem upper_of_deriv {f F : ℝ → ℂ} {a : ℝ} {L : ℂ} (hd : ∀ v, a ≤ v → HasDerivAt F (f v) v)
    (hc : ContinuousOn f (Set.Ici a)) (hl : Tendsto F atTop (𝓝 L)) :
    Tendsto (fun R : ℝ => ∫ v in a..R, f v) atTop (𝓝 (L - F a)) := by
  have h : ∀ᶠ R : ℝ in atTop, F R - F a = ∫ v in a..R, f v := by
    filter_upwards [eventually_ge_atTop a] with R hR
    symm
    apply intervalIntegral.integral_eq_sub_of_hasDerivAt
    · intro x hx
      rw [Set.uIcc_of_le hR] at hx
      exact hd x hx.1
    · apply ContinuousOn.intervalIntegrable
      rw [Set.uIcc_of_le hR]
      exact hc.mono Set.Icc_subset_Ici_self
  exact Tendsto.congr' h (hl.sub_const _)

theorem tendsto_inv_add (α : ℂ) : Tendsto (fun v : ℝ => ((v : ℂ) + α)⁻¹) atTop (𝓝 0) := by
  refine Filter.tendsto_inv₀_cobounded.comp ?_
  have h1 : Tendsto (fun v : ℝ => (v : ℂ)) atTop (Bornology.cobounded ℂ) := by
    rw [tendsto_norm_atTop_iff_cobounded.symm]
    simpa using tendsto_abs_atTop_atTop
  rw [← tendsto_norm_atTop_iff_cobounded] at h1 ⊢
  refine tendsto_atTop_mono (fun v => ?_) (tendsto_atTop_add_const_right _ (-‖α‖) h1)
  have := norm_sub_norm_le ((v : ℂ)) (-α)
  rw [norm_neg, sub_neg_eq_add] at this
  linarith

/-- The shifted variable stays in the right half plane. -/
theorem re_pos {a v : ℝ} {α : ℂ} (h : 0 < a + α.re) (hv : a ≤ v) : 0 < ((v : ℂ) + α).re := by
  simp only [add_re, ofReal_re]; linarith

theorem ne_zero_of_re_pos {z : ℂ} (h : 0 < z.re) : z ≠ 0 := fun h0 => by rw [h0] at h; simp at h

theorem hasDerivAt_shift (α : ℂ) (v : ℝ) : HasDerivAt (fun v : ℝ => (v : ℂ) + α) 1 v :=
  (ofRealCLM.hasDerivAt (x := v)).add_const α

theorem cont_shift (α : ℂ) : Continuous fun v : ℝ => (v : ℂ) + α := by fun_prop

/-- Partial fractions: upper tail for different shifts. -/
theorem upper_pair {a : ℝ} {α β : ℂ} (ha : 0 < a + α.re) (hb : 0 < a + β.re) (hne : α ≠ β) :
    Tendsto (fun R : ℝ => ∫ v in a..R, 1 / (((v : ℂ) + α) * ((v : ℂ) + β))) atTop
      (𝓝 (1 / (β - α) * (log (a + β) - log (a + α)))) := by
  have hd : β - α ≠ 0 := sub_ne_zero.mpr hne.symm
  have key := upper_of_deriv (f := fun v : ℝ => 1 / (((v : ℂ) + α) * ((v : ℂ) + β)))
    (F := fun v : ℝ => 1 / (β - α) * (log ((v : ℂ) + α) - log ((v : ℂ) + β))) (a := a) (L := 0) ?_ ?_ ?_
  · convert key using 2
    ring
  · intro v hv
    have h1 := re_pos ha hv
    have h2 := re_pos hb hv
    have e1 := (hasDerivAt_shift α v).clog_real (.inl h1)
    have e2 := (hasDerivAt_shift β v).clog_real (.inl h2)
    have n1 := ne_zero_of_re_pos h1
    have n2 := ne_zero_of_re_pos h2
    refine ((e1.sub e2).const_mul (1 / (β - α))).congr_deriv ?_
    field_simp
    ring
  · refine ContinuousOn.div continuousOn_const ((cont_shift α).mul (cont_shift β)).continuousOn ?_
    intro v hv
    exact mul_ne_zero (ne_zero_of_re_pos (re_pos ha hv)) (ne_zero_of_re_pos (re_pos hb hv))
  · have ht : Tendsto (fun v : ℝ => log (((v : ℂ) + α) / ((v : ℂ) + β))) atTop (𝓝 (log 1)) := by
      refine Tendsto.clog ?_ (by simp)
      have : Tendsto (fun v : ℝ => 1 + (α - β) * ((v : ℂ) + β)⁻¹) atTop (𝓝 (1 + (α - β) * 0)) :=
        ((tendsto_inv_add β).const_mul _).const_add _
      rw [mul_zero, add_zero] at this
      refine this.congr' ?_
      filter_upwards [eventually_ge_atTop a] with v hv
      have n2 := ne_zero_of_re_pos (re_pos hb hv)
      field_simp
      ring
    rw [log_one] at ht
    have ht2 : Tendsto (fun v : ℝ => log ((v : ℂ) + α) - log ((v : ℂ) + β)) atTop (𝓝 0) := by
      refine ht.congr' ?_
      filter_upwards [eventually_ge_atTop a] with v hv
      have h1 := re_pos ha hv
      have h2 := re_pos hb hv
      have g1 := abs_lt.mp (abs_arg_lt_pi_div_two_iff.mpr (.inl h1))
      have g2 := abs_lt.mp (abs_arg_lt_pi_div_two_iff.mpr (.inl h2))
      have hx : exp (log ((v : ℂ) + α) - log ((v : ℂ) + β)) = ((v : ℂ) + α) / ((v : ℂ) + β) := by
        rw [exp_sub, exp_log (ne_zero_of_re_pos h1), exp_log (ne_zero_of_re_pos h2)]
      rw [← hx, log_exp]
      · rw [sub_im, log_im, log_im]; linarith
      · rw [sub_im, log_im, log_im]; linarith
    simpa using ht2.const_mul (1 / (β - α))

/-- Upper tail for equal shifts. -/
theorem upper_square {a : ℝ} {α : ℂ} (ha : 0 < a + α.re) :
    Tendsto (fun R : ℝ => ∫ v in a..R, 1 / (((v : ℂ) + α) * ((v : ℂ) + α))) atTop (𝓝 (1 / (a + α))) := by
  have key := upper_of_deriv (f := fun v : ℝ => 1 / (((v : ℂ) + α) * ((v : ℂ) + α)))
    (F := fun v : ℝ => -((v : ℂ) + α)⁻¹) (a := a) (L := 0) ?_ ?_ ?_
  · convert key using 2
    simp
  · intro v hv
    have n1 := ne_zero_of_re_pos (re_pos ha hv)
    refine (((hasDerivAt_shift α v).inv n1).neg).congr_deriv ?_
    field_simp
  · refine ContinuousOn.div continuousOn_const ((cont_shift α).mul (cont_shift α)).continuousOn ?_
    intro v hv
    exact mul_ne_zero (ne_zero_of_re_pos (re_pos ha hv)) (ne_zero_of_re_pos (re_pos ha hv))
  · simpa using (tendsto_inv_add α).neg

/-- Upper tail of the derivative of the pair with respect to a common shift. -/
theorem upper_diff {a : ℝ} {α β : ℂ} (ha : 0 < a + α.re) (hb : 0 < a + β.re) :
    Tendsto (fun R : ℝ => ∫ v in a..R, (1 / (((v : ℂ) + α) ^ 2 * ((v : ℂ) + β)) + 1 / (((v : ℂ) + α) * ((v : ℂ) + β) ^ 2)))
      atTop (𝓝 (1 / ((a + α) * (a + β)))) := by
  have key := upper_of_deriv (f := fun v : ℝ => 1 / (((v : ℂ) + α) ^ 2 * ((v : ℂ) + β)) + 1 / (((v : ℂ) + α) * ((v : ℂ) + β) ^ 2))
    (F := fun v : ℝ => -(((v : ℂ) + α)⁻¹ * ((v : ℂ) + β)⁻¹)) (a := a) (L := 0) ?_ ?_ ?_
  · convert key using 2
    simp [mul_comm]
  · intro v hv
    have n1 := ne_zero_of_re_pos (re_pos ha hv)
    have n2 := ne_zero_of_re_pos (re_pos hb hv)
    refine ((((hasDerivAt_shift α v).inv n1).mul ((hasDerivAt_shift β v).inv n2)).neg).congr_deriv ?_
    simp only [Pi.inv_apply]
    field_simp
    ring
  · have hne : ∀ v ∈ Set.Ici a, ((v : ℂ) + α) ≠ 0 ∧ ((v : ℂ) + β) ≠ 0 := fun v hv =>
      ⟨ne_zero_of_re_pos (re_pos ha hv), ne_zero_of_re_pos (re_pos hb hv)⟩
    refine ContinuousOn.add (ContinuousOn.div continuousOn_const
      (((cont_shift α).pow 2).mul (cont_shift β)).continuousOn ?_) (ContinuousOn.div continuousOn_const
      ((cont_shift α).mul ((cont_shift β).pow 2)).continuousOn ?_)
    · intro v hv; exact mul_ne_zero (pow_ne_zero _ (hne v hv).1) (hne v hv).2
    · intro v hv; exact mul_ne_zero (hne v hv).1 (pow_ne_zero _ (hne v hv).2)
  · simpa using ((tendsto_inv_add α).mul (tendsto_inv_add β)).neg

/-- Tails from the two sides: `f` agrees with `up` above and with `lo` (reflected) below. -/
theorem isTail_of {f up lo : ℝ → ℂ} {vmin vmax : ℝ} {x y : ℂ} (hu : ∀ v, vmax ≤ v → f v = up v)
    (hl : ∀ v, -vmin ≤ v → f (-v) = lo v)
    (hx : Tendsto (fun R : ℝ => ∫ v in vmax..R, up v) atTop (𝓝 x))
    (hy : Tendsto (fun R : ℝ => ∫ v in (-vmin)..R, lo v) atTop (𝓝 y)) : IsTail f vmin vmax (y + x) := by
  have e1 : ∀ᶠ R : ℝ in atTop, (∫ v in vmax..R, up v) = ∫ v in vmax..R, f v := by
    filter_upwards [eventually_ge_atTop vmax] with R hR
    apply intervalIntegral.integral_congr
    intro v hv
    rw [Set.uIcc_of_le hR] at hv
    exact (hu v hv.1).symm
  have e2 : ∀ᶠ R : ℝ in atTop, (∫ v in (-vmin)..R, lo v) = ∫ v in (-R)..vmin, f v := by
    filter_upwards [eventually_ge_atTop (-vmin)] with R hR
    have := intervalIntegral.integral_comp_neg (a := -vmin) (b := R) f
    rw [neg_neg] at this
    rw [← this]
    apply intervalIntegral.integral_congr
    intro v hv
    rw [Set.uIcc_of_le hR] at hv
    exact (hl v hv.1).symm
  exact (hy.congr' e2).add (hx.congr' e1)

theorem IsTail.smul {f : ℝ → ℂ} {vmin vmax : ℝ} {x : ℂ} (h : IsTail f vmin vmax x) (k : ℂ) :
    IsTail (fun v => k * f v) vmin vmax (k * x) := by
  have := Tendsto.const_mul k h
  refine this.congr fun R => ?_
  rw [intervalIntegral.integral_const_mul, intervalIntegral.integral_const_mul, mul_add]

theorem IsTail.unique {f : ℝ → ℂ} {vmin vmax : ℝ} {x y : ℂ} (h : IsTail f vmin vmax x) (h' : IsTail f vmin vmax y) :
    x = y := tendsto_nhds_unique h h'

/-- Small angles. -/
theorem arg_small {z : ℂ} (h : |z.im| < z.re) : |arg z| < Real.pi / 4 := by
  have hr : 0 < z.re := lt_of_le_of_lt (abs_nonneg _) h
  have hz := ne_zero_of_re_pos hr
  have hn : 0 < ‖z‖ := norm_pos_iff.mpr hz
  have hsq : ‖z‖ ^ 2 = z.re ^ 2 + z.im ^ 2 := by rw [Complex.sq_norm, normSq_apply]; ring
  have him : z.im ^ 2 < z.re ^ 2 := by rw [← sq_abs z.im]; exact pow_lt_pow_left₀ h (abs_nonneg _) two_ne_zero
  have hb : |z.im / ‖z‖| < Real.sin (Real.pi / 4) := by
    rw [Real.sin_pi_div_four, abs_div, abs_of_pos hn, div_lt_iff₀ hn]
    apply lt_of_pow_lt_pow_left₀ 2 (by positivity)
    rw [sq_abs, mul_pow, div_pow, Real.sq_sqrt (by norm_num), hsq]
    linarith
  have hpi := Real.pi_pos
  rw [arg_of_re_nonneg hr.le, abs_lt]
  rw [abs_lt] at hb
  constructor
  · rw [Real.lt_arcsin_iff_sin_lt' ⟨by linarith, by linarith⟩, Real.sin_neg]; exact hb.1
  · rw [Real.arcsin_lt_iff_lt_sin' ⟨by linarith, by linarith⟩]; exact hb.2

/-- The logarithm of the quotient of products, for small angles. -/
theorem log_four {a b c d : ℂ} (ha : |a.im| < a.re) (hb : |b.im| < b.re) (hc : |c.im| < c.re) (hd : |d.im| < d.re) :
    log (a * b / (c * d)) = log a + log b - log c - log d := by
  have n : ∀ z : ℂ, |z.im| < z.re → z ≠ 0 := fun z h => ne_zero_of_re_pos (lt_of_le_of_lt (abs_nonneg _) h)
  have hx : exp (log a + log b - log c - log d) = a * b / (c * d) := by
    rw [exp_sub, exp_sub, exp_add, exp_log (n a ha), exp_log (n b hb), exp_log (n c hc), exp_log (n d hd)]
    have := n c hc; have := n d hd
    field_simp
  have g1 := abs_lt.mp (arg_small ha)
  have g2 := abs_lt.mp (arg_small hb)
  have g3 := abs_lt.mp (arg_small hc)
  have g4 := abs_lt.mp (arg_small hd)
  rw [← hx, log_exp] <;> simp only [sub_im, add_im, log_im] <;> linarith

end Verif.Tails

namespace Verif.Tails
open Complex MeasureTheory Filter Topology

/-- The tails of the a- and t-channel bubble. -/
theorem tail_at {w Δ e vmin vmax : ℝ} {f : ℝ → ℂ} (h1 : |w| / 2 + |e| < vmax + Δ) (h2 : |w| / 2 + |e| < -vmin + Δ)
    (hu : ∀ v : ℝ, vmax ≤ v → f v = -1 * (1 / (((v : ℂ) + (-w / 2 + Δ + I * e)) * ((v : ℂ) + (w / 2 + Δ + I * e)))))
    (hl : ∀ v : ℝ, -vmin ≤ v →
      f (-v) = -1 * (1 / (((v : ℂ) + (w / 2 + Δ - I * e)) * ((v : ℂ) + (-w / 2 + Δ - I * e))))) :
    IsTail f vmin vmax (atNoPHS w vmin vmax e Δ false) := by
  have hw := abs_le.mp (le_refl |w|)
  have he := abs_nonneg e
  have r1 : (-w / 2 + Δ + I * e : ℂ).re = -w / 2 + Δ := by simp
  have r2 : (w / 2 + Δ + I * e : ℂ).re = w / 2 + Δ := by simp
  have r3 : (w / 2 + Δ - I * e : ℂ).re = w / 2 + Δ := by simp
  have r4 : (-w / 2 + Δ - I * e : ℂ).re = -w / 2 + Δ := by simp
  have e' : |-e| = |e| := abs_neg e
  by_cases h0 : w = 0
  · subst h0
    have hx := (upper_square (a := vmax) (α := (-(0 : ℝ) / 2 + Δ + I * e : ℂ)) (by rw [r1]; linarith)).const_mul (-1 : ℂ)
    have hy := (upper_square (a := -vmin) (α := ((0 : ℝ) / 2 + Δ - I * e : ℂ)) (by rw [r3]; linarith)).const_mul (-1 : ℂ)
    simp only [← intervalIntegral.integral_const_mul] at hx hy
    have := isTail_of (f := f) (fun v hv => ?_) (fun v hv => ?_) hx hy
    · convert this using 1
      simp only [atNoPHS, if_true, Bool.false_eq_true, if_false]
      have n1 : (vmin + I * e - Δ : ℂ) ≠ 0 := by
        intro h; have := congrArg Complex.re h; simp at this h2; linarith
      have n2 : ((-vmin : ℝ) + ((0 : ℝ) / 2 + Δ - I * e) : ℂ) = -(vmin + I * e - Δ) := by push_cast; ring
      rw [n2]
      push_cast
      rw [show (vmax + (-0 / 2 + Δ + I * e) : ℂ) = vmax + I * e + Δ by ring]
      rw [div_neg]
      ring
    · rw [hu v hv]; push_cast; ring_nf
    · rw [hl v hv]; push_cast; ring_nf
  · have hwC : (w : ℂ) ≠ 0 := by exact_mod_cast h0
    have hx := (upper_pair (a := vmax) (α := (-w / 2 + Δ + I * e : ℂ)) (β := (w / 2 + Δ + I * e : ℂ))
      (by rw [r1]; linarith) (by rw [r2]; linarith)
      (fun h => hwC (by linear_combination -h))).const_mul (-1 : ℂ)
    have hy := (upper_pair (a := -vmin) (α := (w / 2 + Δ - I * e : ℂ)) (β := (-w / 2 + Δ - I * e : ℂ))
      (by rw [r3]; linarith) (by rw [r4]; linarith)
      (fun h => hwC (by linear_combination h))).const_mul (-1 : ℂ)
    simp only [← intervalIntegral.integral_const_mul] at hx hy
    have := isTail_of (f := f) hu hl hx hy
    convert this using 1
    simp only [atNoPHS, h0, Bool.false_eq_true, if_false]
    rw [log_four]
    · rw [show (w / 2 + Δ + I * e - (-w / 2 + Δ + I * e) : ℂ) = w by ring,
        show (-w / 2 + Δ - I * e - (w / 2 + Δ - I * e) : ℂ) = -w by ring]
      rw [show (-vmin - w / 2 - I * e + Δ : ℂ) = (-vmin : ℝ) + (-w / 2 + Δ - I * e) by push_cast; ring,
        show (vmax - w / 2 + I * e + Δ : ℂ) = vmax + (-w / 2 + Δ + I * e) by ring,
        show (-vmin + w / 2 - I * e + Δ : ℂ) = (-vmin : ℝ) + (w / 2 + Δ - I * e) by push_cast; ring,
        show (vmax + w / 2 + I * e + Δ : ℂ) = vmax + (w / 2 + Δ + I * e) by ring]
      rw [div_neg]
      ring
    all_goals simp; linarith

/-- The tails of the p-channel bubble. -/
theorem tail_p {w Δ e vmin vmax : ℝ} {f : ℝ → ℂ} (h1 : |w| / 2 + |e| < vmax + Δ) (h2 : |w| / 2 + |e| < -vmin + Δ)
    (hu : ∀ v : ℝ, vmax ≤ v → f v = 1 / (((v : ℂ) + (Δ + (w / 2 + I * e))) * ((v : ℂ) + (Δ - (w / 2 + I * e)))))
    (hl : ∀ v : ℝ, -vmin ≤ v →
      f (-v) = 1 / (((v : ℂ) + (Δ + (w / 2 + I * e))) * ((v : ℂ) + (Δ - (w / 2 + I * e))))) :
    IsTail f vmin vmax (pNoPHS w vmin vmax e Δ false) := by
  have hw := abs_le.mp (le_refl |w|)
  have he := abs_nonneg e
  have r1 : (Δ + (w / 2 + I * e) : ℂ).re = Δ + w / 2 := by simp
  have r2 : (Δ - (w / 2 + I * e) : ℂ).re = Δ - w / 2 := by simp
  have e' : |-e| = |e| := abs_neg e
  by_cases h0 : (e : ℂ) = 0 ∧ w = 0
  · obtain ⟨h0, h0'⟩ := h0
    have h0 : e = 0 := by exact_mod_cast h0
    subst h0 h0'
    have hx := upper_square (a := vmax) (α := (Δ : ℂ)) (by simp at h1; simpa using h1)
    have hy := upper_square (a := -vmin) (α := (Δ : ℂ)) (by simp at h2; simpa using h2)
    have := isTail_of (f := f) (fun v hv => ?_) (fun v hv => ?_) hx hy
    · convert this using 1
      simp only [pNoPHS, Bool.false_eq_true, if_false, ofReal_zero, and_self, if_true]
      rw [show ((-vmin : ℝ) + Δ : ℂ) = -(vmin - Δ) by push_cast; ring, div_neg]
      ring
    · rw [hu v hv]; push_cast; ring_nf
    · rw [hl v hv]; push_cast; ring_nf
  · have hz : (w + 2 * I * e : ℂ) ≠ 0 := by
      intro h
      have hr := congrArg Complex.re h
      have hi := congrArg Complex.im h
      simp at hr hi
      exact h0 ⟨by exact_mod_cast hi, hr⟩
    have hx := upper_pair (a := vmax) (α := (Δ + (w / 2 + I * e) : ℂ)) (β := (Δ - (w / 2 + I * e) : ℂ))
      (by rw [r1]; linarith) (by rw [r2]; linarith) (fun h => hz (by linear_combination h))
    have hy := upper_pair (a := -vmin) (α := (Δ + (w / 2 + I * e) : ℂ)) (β := (Δ - (w / 2 + I * e) : ℂ))
      (by rw [r1]; linarith) (by rw [r2]; linarith) (fun h => hz (by linear_combination h))
    have := isTail_of (f := f) hu hl hx hy
    convert this using 1
    simp only [pNoPHS, h0, Bool.false_eq_true, if_false]
    rw [log_four]
    · rw [show (Δ - (w / 2 + I * e) - (Δ + (w / 2 + I * e)) : ℂ) = -(w + 2 * I * e) by ring]
      rw [show (-vmin + w / 2 + I * e + Δ : ℂ) = (-vmin : ℝ) + (Δ + (w / 2 + I * e)) by push_cast; ring,
        show (vmax + w / 2 + I * e + Δ : ℂ) = vmax + (Δ + (w / 2 + I * e)) by ring,
        show (-vmin - w / 2 - I * e + Δ : ℂ) = (-vmin : ℝ) + (Δ - (w / 2 + I * e)) by push_cast; ring,
        show (vmax - w / 2 - I * e + Δ : ℂ) = vmax + (Δ - (w / 2 + I * e)) by ring]
      rw [div_neg]
      ring
    all_goals simp; linarith

/-- The tails of the differentiated a- and t-channel bubble. -/
theorem tail_at_diff {w Δ e vmin vmax : ℝ} {f : ℝ → ℂ} (h1 : |w| / 2 < vmax + Δ) (h2 : |w| / 2 < -vmin + Δ)
    (hu : ∀ v : ℝ, vmax ≤ v → f v = 1 / 2 *
      (1 / (((v : ℂ) + (-w / 2 + Δ + I * e)) ^ 2 * ((v : ℂ) + (w / 2 + Δ + I * e))) +
        1 / (((v : ℂ) + (-w / 2 + Δ + I * e)) * ((v : ℂ) + (w / 2 + Δ + I * e)) ^ 2)))
    (hl : ∀ v : ℝ, -vmin ≤ v → f (-v) = 1 / 2 *
      (1 / (((v : ℂ) + (w / 2 + Δ - I * e)) ^ 2 * ((v : ℂ) + (-w / 2 + Δ - I * e))) +
        1 / (((v : ℂ) + (w / 2 + Δ - I * e)) * ((v : ℂ) + (-w / 2 + Δ - I * e)) ^ 2))) :
    IsTail f vmin vmax (atNoPHS w vmin vmax e Δ true) := by
  have hw := abs_le.mp (le_refl |w|)
  have r1 : (-w / 2 + Δ + I * e : ℂ).re = -w / 2 + Δ := by simp
  have r2 : (w / 2 + Δ + I * e : ℂ).re = w / 2 + Δ := by simp
  have r3 : (w / 2 + Δ - I * e : ℂ).re = w / 2 + Δ := by simp
  have r4 : (-w / 2 + Δ - I * e : ℂ).re = -w / 2 + Δ := by simp
  have hx := (upper_diff (a := vmax) (α := (-w / 2 + Δ + I * e : ℂ)) (β := (w / 2 + Δ + I * e : ℂ))
      (by rw [r1]; linarith) (by rw [r2]; linarith)).const_mul (1 / 2 : ℂ)
  have hy := (upper_diff (a := -vmin) (α := (w / 2 + Δ - I * e : ℂ)) (β := (-w / 2 + Δ - I * e : ℂ))
      (by rw [r3]; linarith) (by rw [r4]; linarith)).const_mul (1 / 2 : ℂ)
  simp only [← intervalIntegral.integral_const_mul] at hx hy
  have := isTail_of (f := f) hu hl hx hy
  convert this using 1
  simp only [atNoPHS, if_true]
  rw [mul_add]
  congr 3 <;> push_cast <;> ring

/-- The tails of the differentiated p-channel bubble. -/
theorem tail_p_diff {w Δ e vmin vmax : ℝ} {f : ℝ → ℂ} (h1 : |w| / 2 < vmax + Δ) (h2 : |w| / 2 < -vmin + Δ)
    (hu : ∀ v : ℝ, vmax ≤ v → f v = -(1 / 2) *
      (1 / (((v : ℂ) + (Δ + (w / 2 + I * e))) ^ 2 * ((v : ℂ) + (Δ - (w / 2 + I * e)))) +
        1 / (((v : ℂ) + (Δ + (w / 2 + I * e))) * ((v : ℂ) + (Δ - (w / 2 + I * e))) ^ 2)))
    (hl : ∀ v : ℝ, -vmin ≤ v → f (-v) = -(1 / 2) *
      (1 / (((v : ℂ) + (Δ + (w / 2 + I * e))) ^ 2 * ((v : ℂ) + (Δ - (w / 2 + I * e)))) +
        1 / (((v : ℂ) + (Δ + (w / 2 + I * e))) * ((v : ℂ) + (Δ - (w / 2 + I * e))) ^ 2))) :
    IsTail f vmin vmax (-pNoPHS w vmin vmax e Δ true) := by
  have hw := abs_le.mp (le_refl |w|)
  have r1 : (Δ + (w / 2 + I * e) : ℂ).re = Δ + w / 2 := by simp
  have r2 : (Δ - (w / 2 + I * e) : ℂ).re = Δ - w / 2 := by simp
  have hx := (upper_diff (a := vmax) (α := (Δ + (w / 2 + I * e) : ℂ)) (β := (Δ - (w / 2 + I * e) : ℂ))
      (by rw [r1]; linarith) (by rw [r2]; linarith)).const_mul (-(1 / 2) : ℂ)
  have hy := (upper_diff (a := -vmin) (α := (Δ + (w / 2 + I * e) : ℂ)) (β := (Δ - (w / 2 + I * e) : ℂ))
      (by rw [r1]; linarith) (by rw [r2]; linarith)).const_mul (-(1 / 2) : ℂ)
  simp only [← intervalIntegral.integral_const_mul] at hx hy
  have := isTail_of (f := f) hu hl hx hy
  convert this using 1
  simp only [pNoPHS, if_true]
  rw [← neg_mul, mul_add]
  congr 3 <;> push_cast <;> ring

/-- The tails of the a- and t-channel bubble at real frequencies. -/
theorem tail_at_keldysh {w Δ e vmin vmax η₁ η₂ : ℝ} {f : ℝ → ℂ} (hΔ : 0 < Δ) (g1 : |η₁| = 1) (g2 : |η₂| = 1)
    (hneg : vmin ≤ 0) (h1 : |w| / 2 + |e| + Δ < vmax) (h2 : |w| / 2 + |e| + Δ < -vmin)
    (hf : ∀ v : ℝ, f v = 1 / (((v : ℂ) + (-w / 2 - e + η₁ * I * Δ)) * ((v : ℂ) + (w / 2 - e + η₂ * I * Δ)))) :
    IsTail f vmin vmax (atKeldysh w vmin vmax e Δ η₁ η₂ false) := by
  have hw := abs_le.mp (le_refl |w|)
  have he := abs_le.mp (le_refl |e|)
  have r1 : (-w / 2 - e + η₁ * I * Δ : ℂ).re = -w / 2 - e := by simp
  have r2 : (w / 2 - e + η₂ * I * Δ : ℂ).re = w / 2 - e := by simp
  have r3 : (w / 2 + e - η₁ * I * Δ : ℂ).re = w / 2 + e := by simp
  have r4 : (-w / 2 + e - η₂ * I * Δ : ℂ).re = -w / 2 + e := by simp
  have hv : |vmin| = -vmin := abs_of_nonpos hneg
  have hl : ∀ v : ℝ, -vmin ≤ v → f (-v) = 1 / (((v : ℂ) + (w / 2 + e - η₁ * I * Δ)) * ((v : ℂ) + (-w / 2 + e - η₂ * I * Δ))) := by
    intro v _
    rw [hf]; push_cast; congr 1; ring
  by_cases h0 : w = 0 ∧ η₁ = η₂
  · obtain ⟨h0, h0'⟩ := h0
    subst h0 h0'
    have hx := upper_square (a := vmax) (α := (-(0 : ℝ) / 2 - e + η₁ * I * Δ : ℂ)) (by rw [r1]; linarith)
    have hy := upper_square (a := -vmin) (α := ((0 : ℝ) / 2 + e - η₁ * I * Δ : ℂ)) (by rw [r3]; linarith)
    have := isTail_of (f := f) (fun v _ => ?_) (fun v h => ?_) hx hy
    · convert this using 1
      simp only [atKeldysh, Bool.false_eq_true, if_false, and_self, if_true, hv]
      push_cast
      rw [add_comm]
      congr 2 <;> ring
    · rw [hf v]; push_cast; ring_nf
    · rw [hl v h]; push_cast; ring_nf
  · have hz : (-w + (η₁ - η₂) * I * Δ : ℂ) ≠ 0 := by
      intro h
      have hr := congrArg Complex.re h
      have hi := congrArg Complex.im h
      simp at hr hi
      refine h0 ⟨by linarith, ?_⟩
      rcases hi with hi | hi
      · linarith
      · exact absurd hi hΔ.ne'
    have hx := upper_pair (a := vmax) (α := (-w / 2 - e + η₁ * I * Δ : ℂ)) (β := (w / 2 - e + η₂ * I * Δ : ℂ))
      (by rw [r1]; linarith) (by rw [r2]; linarith) (fun h => hz (by linear_combination h))
    have hy := upper_pair (a := -vmin) (α := (w / 2 + e - η₁ * I * Δ : ℂ)) (β := (-w / 2 + e - η₂ * I * Δ : ℂ))
      (by rw [r3]; linarith) (by rw [r4]; linarith) (fun h => hz (by linear_combination -h))
    have := isTail_of (f := f) (fun v _ => hf v) hl hx hy
    convert this using 1
    simp only [atKeldysh, h0, Bool.false_eq_true, if_false, hv]
    rw [log_four]
    · rw [show (w / 2 - e + η₂ * I * Δ - (-w / 2 - e + η₁ * I * Δ) : ℂ) = -(-w + (η₁ - η₂) * I * Δ) by ring,
        show (-w / 2 + e - η₂ * I * Δ - (w / 2 + e - η₁ * I * Δ) : ℂ) = (-w + (η₁ - η₂) * I * Δ) by ring]
      rw [show (vmax - w / 2 - e + η₁ * I * Δ : ℂ) = vmax + (-w / 2 - e + η₁ * I * Δ) by ring,
        show ((-vmin : ℝ) - w / 2 + e - η₂ * I * Δ : ℂ) = (-vmin : ℝ) + (-w / 2 + e - η₂ * I * Δ) by ring,
        show (vmax + w / 2 - e + η₂ * I * Δ : ℂ) = vmax + (w / 2 - e + η₂ * I * Δ) by ring,
        show ((-vmin : ℝ) + w / 2 + e - η₁ * I * Δ : ℂ) = (-vmin : ℝ) + (w / 2 + e - η₁ * I * Δ) by ring]
      rw [div_neg]
      ring
    all_goals simp [abs_mul, g1, g2, abs_of_pos hΔ]; linarith

/-- The tails of the p-channel bubble at real frequencies. -/
theorem tail_p_keldysh {w Δ e vmin vmax η₁ η₂ : ℝ} {f : ℝ → ℂ} (hΔ : 0 < Δ) (g1 : |η₁| = 1) (g2 : |η₂| = 1)
    (hneg : vmin ≤ 0) (h1 : |w| / 2 + |e| + Δ < vmax) (h2 : |w| / 2 + |e| + Δ < -vmin)
    (hf : ∀ v : ℝ, f v = -1 * (1 / (((v : ℂ) + (w / 2 - e + η₁ * I * Δ)) * ((v : ℂ) + (-w / 2 + e - η₂ * I * Δ))))) :
    IsTail f vmin vmax (pKeldysh w vmin vmax e Δ η₁ η₂ false) := by
  have hw := abs_le.mp (le_refl |w|)
  have he := abs_le.mp (le_refl |e|)
  have r1 : (w / 2 - e + η₁ * I * Δ : ℂ).re = w / 2 - e := by simp
  have r2 : (-w / 2 + e - η₂ * I * Δ : ℂ).re = -w / 2 + e := by simp
  have r3 : (-w / 2 + e - η₁ * I * Δ : ℂ).re = -w / 2 + e := by simp
  have r4 : (w / 2 - e + η₂ * I * Δ : ℂ).re = w / 2 - e := by simp
  have hv : |vmin| = -vmin := abs_of_nonpos hneg
  have hl : ∀ v : ℝ, -vmin ≤ v → f (-v) = -1 * (1 / (((v : ℂ) + (-w / 2 + e - η₁ * I * Δ)) * ((v : ℂ) + (w / 2 - e + η₂ * I * Δ)))) := by
    intro v _
    rw [hf]; push_cast; congr 2; ring
  by_cases h0 : (w : ℂ) = 2 * e ∧ η₁ = -η₂
  · obtain ⟨h0, h0'⟩ := h0
    have h0R : w = 2 * e := by exact_mod_cast h0
    have hx := (upper_square (a := vmax) (α := (η₁ * I * Δ : ℂ)) (by simp; linarith [abs_nonneg w, abs_nonneg e])).const_mul (-1 : ℂ)
    have hy := (upper_square (a := -vmin) (α := (-η₁ * I * Δ : ℂ)) (by simp; linarith [abs_nonneg w, abs_nonneg e])).const_mul (-1 : ℂ)
    simp only [← intervalIntegral.integral_const_mul] at hx hy
    have h2' : η₂ = -η₁ := by linarith
    have := isTail_of (f := f) (fun v _ => ?_) (fun v h => ?_) hx hy
    · convert this using 1
      simp only [pKeldysh, h0, h0', Bool.false_eq_true, if_false, and_self, if_true, hv]
      push_cast
      ring_nf
    · rw [hf v, h0R, h2']; push_cast; ring_nf
    · rw [hl v h, h0R, h2']; push_cast; ring_nf
  · have hz : (w - 2 * e + (η₁ + η₂) * I * Δ : ℂ) ≠ 0 := by
      intro h
      have hr := congrArg Complex.re h
      have hi := congrArg Complex.im h
      simp at hr hi
      refine h0 ⟨by exact_mod_cast (by linarith : w = 2 * e), ?_⟩
      rcases hi with hi | hi
      · linarith
      · exact absurd hi hΔ.ne'
    have hx := (upper_pair (a := vmax) (α := (w / 2 - e + η₁ * I * Δ : ℂ)) (β := (-w / 2 + e - η₂ * I * Δ : ℂ))
      (by rw [r1]; linarith) (by rw [r2]; linarith) (fun h => hz (by linear_combination h))).const_mul (-1 : ℂ)
    have hy := (upper_pair (a := -vmin) (α := (-w / 2 + e - η₁ * I * Δ : ℂ)) (β := (w / 2 - e + η₂ * I * Δ : ℂ))
      (by rw [r3]; linarith) (by rw [r4]; linarith) (fun h => hz (by linear_combination -h))).const_mul (-1 : ℂ)
    simp only [← intervalIntegral.integral_const_mul] at hx hy
    have := isTail_of (f := f) (fun v _ => hf v) hl hx hy
    convert this using 1
    simp only [pKeldysh, h0, Bool.false_eq_true, if_false, hv]
    rw [log_four]
    · rw [show (-w / 2 + e - η₂ * I * Δ - (w / 2 - e + η₁ * I * Δ) : ℂ) = -(w - 2 * e + (η₁ + η₂) * I * Δ) by ring,
        show (w / 2 - e + η₂ * I * Δ - (-w / 2 + e - η₁ * I * Δ) : ℂ) = (w - 2 * e + (η₁ + η₂) * I * Δ) by ring]
      rw [show (vmax + w / 2 - e + η₁ * I * Δ : ℂ) = vmax + (w / 2 - e + η₁ * I * Δ) by ring,
        show ((-vmin : ℝ) + w / 2 - e + η₂ * I * Δ : ℂ) = (-vmin : ℝ) + (w / 2 - e + η₂ * I * Δ) by ring,
        show (vmax - w / 2 + e - η₂ * I * Δ : ℂ) = vmax + (-w / 2 + e - η₂ * I * Δ) by ring,
        show ((-vmin : ℝ) - w / 2 + e - η₁ * I * Δ : ℂ) = (-vmin : ℝ) + (-w / 2 + e - η₁ * I * Δ) by ring]
      rw [div_neg]
      ring
    all_goals simp [abs_mul, g1, g2, abs_of_pos hΔ]; linarith

end Verif.Tails
