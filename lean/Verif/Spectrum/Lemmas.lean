import Verif.Spectrum.Model
import Verif.Causal.Props
import Verif.Filling.Lorentz

namespace Verif.Spectrum
open Verif.Heredity Verif.Propagator Verif.Invariant MeasureTheory
open Filter Topology

variable {p : Par} {σ : ℝ → SE}

theorem gr_eq (x : ℝ) : (lineG p σ x).gr = 1 / ((x - p.eps : ℝ) + Complex.I * half p - (σ x).R) := by
  show 1 / (g0Rinv { p with v := x } + Complex.I * p.Lam * 0.5 - (σ x).R) = _
  simp only [g0Rinv, half]
  congr 1
  push_cast
  ring

theorem free_im (x : ℝ) : ((lineG p (fun _ => ⟨0, 0, 0⟩) x).gr).im = -Real.pi * Filling.lor (half p) (x - p.eps) := by
  rw [gr_eq]
  have e : ((x - p.eps : ℝ) : ℂ) + Complex.I * half p - (0 : ℂ) = ⟨x - p.eps, half p⟩ := by
    apply Complex.ext <;> simp
  simp only [e, one_div, Complex.inv_im, Complex.normSq_mk, Filling.lor]
  have hpi := Real.pi_ne_zero
  rw [show (x - p.eps) * (x - p.eps) + half p * half p = (x - p.eps) ^ 2 + half p ^ 2 by ring]
  field_simp

theorem retSE_zero : RetardedSE fun v : ℝ => ((fun _ : ℝ => (⟨0, 0, 0⟩ : SE)) v).R :=
  ⟨fun _ => 0, 0, continuousOn_const, differentiableOn_const _, fun _ => rfl, fun _ _ => by simp, fun _ _ => by simp⟩

theorem upper_SE {f : ℝ → ℂ} : RetardedSE f → Upper f := fun ⟨F, C, h1, h2, h3, h4, _⟩ => ⟨F, C, h1, h2, h3, h4⟩

/-- The difference to the free propagator integrates to zero. -/
theorem null_diff (h : RetardedSE fun v => (σ v).R) (hp : 0 < p.Gam + p.Lam) :
    Null fun x => (lineG p σ x).gr - (lineG p (fun _ => ⟨0, 0, 0⟩) x).gr := by
  have g := retarded_G h hp
  have g0 := retarded_G (p := p) retSE_zero hp
  have n := (g.mul_upper (upper_SE h)).null_mul g0
  refine n.congr fun x => ?_
  have i1 : (x - p.eps : ℝ) + Complex.I * half p - (σ x).R ≠ 0 := fun h0 => by
    have := congrArg Complex.im h0
    obtain ⟨F, C, _, _, h3, _, h5⟩ := h
    have b := h5 x (by simp)
    rw [h3] at b
    simp [half] at this
    linarith
  have i2 : (x - p.eps : ℝ) + Complex.I * half p - (0 : ℂ) ≠ 0 := fun h0 => by
    have := congrArg Complex.im h0
    simp [half] at this
    linarith
  rw [gr_eq, gr_eq]
  dsimp only
  field_simp
  ring

theorem integrand_eq (x : ℝ) : integrand .hyb p σ x = ((lineG p σ x).gr).im / (-Real.pi) := rfl

theorem total (h : RetardedSE fun v => (σ v).R) (hp : 0 < p.Gam + p.Lam) :
    Integrable (integrand .hyb p σ) ∧ ∫ x, integrand .hyb p σ x = 1 := by
  have hD : 0 < half p := by unfold half; positivity
  have n := null_diff h hp
  have i1 := Filling.integrable_lor_sub hD p.eps
  have i2 : Integrable fun x => ((lineG p σ x).gr - (lineG p (fun _ => ⟨0, 0, 0⟩) x).gr).im := n.1.im
  have e : integrand .hyb p σ = fun x => Filling.lor (half p) (x - p.eps) +
      ((lineG p σ x).gr - (lineG p (fun _ => ⟨0, 0, 0⟩) x).gr).im / (-Real.pi) := by
    funext x
    rw [integrand_eq, Complex.sub_im, free_im]
    have hpi := Real.pi_ne_zero
    field_simp
    ring
  refine ⟨by rw [e]; exact i1.add (i2.div_const _), ?_⟩
  rw [e, integral_add i1 (i2.div_const _), Filling.integral_lor_sub hD, integral_div]
  have : ∫ x, ((lineG p σ x).gr - (lineG p (fun _ => ⟨0, 0, 0⟩) x).gr).im = 0 := by
    have := integral_im n.1
    rw [n.2] at this
    simpa using this
  rw [this]; simp

/-- upper bound -/
theorem pos (h : RetardedSE fun v => (σ v).R) (hp : 0 < p.Gam + p.Lam) (x : ℝ) : 0 < integrand .hyb p σ x := by
  obtain ⟨F, C, h1, h2, h3, h4, h5⟩ := h
  have b := h5 x (by simp)
  rw [h3] at b
  rw [integrand_eq, gr_eq, one_div, Complex.inv_im]
  have im : ((x - p.eps : ℝ) + Complex.I * half p - (σ x).R : ℂ).im = half p - (σ x).R.im := by simp
  have hD : 0 < half p := by unfold half; positivity
  rw [im]
  have n : 0 < Complex.normSq ((x - p.eps : ℝ) + Complex.I * half p - (σ x).R : ℂ) := by
    rw [Complex.normSq_pos]
    intro h0
    rw [h0] at im
    simp at im; linarith
  have hpi := Real.pi_pos
  rw [neg_div, neg_div_neg_eq]
  have : 0 < half p - (σ x).R.im := by linarith
  positivity

theorem le_tail {C : ℝ} (hC : ∀ x, ‖(σ x).R‖ ≤ C) (hp : 0 < p.Gam + p.Lam) {x : ℝ} (hx : |p.eps| + C < |x|) :
    integrand .hyb p σ x ≤ (half p + C) / Real.pi * ((|x| - (|p.eps| + C)) ^ 2)⁻¹ := by
  have hpi := Real.pi_pos
  have hD : 0 < half p := by unfold half; positivity
  have c := hC x
  rw [integrand_eq, gr_eq, one_div, Complex.inv_im]
  have im : ((x - p.eps : ℝ) + Complex.I * half p - (σ x).R : ℂ).im = half p - (σ x).R.im := by simp
  have re : ((x - p.eps : ℝ) + Complex.I * half p - (σ x).R : ℂ).re = x - p.eps - (σ x).R.re := by simp
  have a1 := (Complex.abs_im_le_norm (σ x).R).trans c
  have a2 := (Complex.abs_re_le_norm (σ x).R).trans c
  have low : |x| - (|p.eps| + C) ≤ |x - p.eps - (σ x).R.re| := by
    have t1 := abs_sub_abs_le_abs_sub x (p.eps + (σ x).R.re)
    have t2 := abs_add_le p.eps (σ x).R.re
    rw [← sub_sub] at t1
    linarith
  have k0 : 0 < |x| - (|p.eps| + C) := by linarith
  have n : (|x| - (|p.eps| + C)) ^ 2 ≤ Complex.normSq ((x - p.eps : ℝ) + Complex.I * half p - (σ x).R : ℂ) := by
    rw [Complex.normSq_apply, re, im]
    have := pow_le_pow_left₀ k0.le low 2
    rw [sq_abs] at this
    nlinarith [sq_nonneg (half p - (σ x).R.im)]
  have n0 : 0 < (|x| - (|p.eps| + C)) ^ 2 := by positivity
  rw [im, neg_div, neg_div_neg_eq, div_div, div_mul_eq_mul_div, ← div_eq_mul_inv, div_div]
  have b := (abs_le.1 a1).1
  have c0 := (norm_nonneg _).trans c
  refine div_le_div₀ (by linarith) (by linarith) (by positivity) ?_
  exact mul_le_mul_of_nonneg_right n hpi.le

theorem tail_int {b w : ℝ} (h : b < w) : IntegrableOn (fun x : ℝ => ((x - b) ^ 2)⁻¹) (Set.Ioi w) ∧
    ∫ x in Set.Ioi w, ((x - b) ^ 2)⁻¹ = (w - b)⁻¹ := by
  have hd : ∀ x ∈ Set.Ici w, HasDerivAt (fun x : ℝ => -(x - b)⁻¹) (((x - b) ^ 2)⁻¹) x := fun x hx => by
    have hx : w ≤ x := hx
    have : x - b ≠ 0 := by intro h0; linarith
    have := (((hasDerivAt_id' x).sub_const b).inv this).neg
    rw [neg_div, neg_neg, one_div] at this
    exact this
  have ht : Tendsto (fun x : ℝ => -(x - b)⁻¹) atTop (𝓝 0) := by
    have := (tendsto_inv_atTop_zero.comp (tendsto_atTop_add_const_right atTop (-b) tendsto_id)).neg
    simpa [sub_eq_add_neg] using this
  have hn : ∀ x ∈ Set.Ioi w, 0 ≤ ((x - b) ^ 2)⁻¹ := fun x _ => by positivity
  refine ⟨integrableOn_Ioi_deriv_of_nonneg' hd hn ht, ?_⟩
  rw [integral_Ioi_of_hasDerivAt_of_nonneg' hd hn ht]
  ring

theorem split (h : RetardedSE fun v => (σ v).R) (hp : 0 < p.Gam + p.Lam) {w : ℝ} (hw : 0 ≤ w) :
    1 - sumRule .hyb p σ w = (∫ x in Set.Iic (-w), integrand .hyb p σ x) + ∫ x in Set.Ioi w, integrand .hyb p σ x := by
  obtain ⟨i, t⟩ := total h hp
  have e1 := integral_add_compl (measurableSet_Iic (a := -w)) i
  rw [Set.compl_Iic, t] at e1
  have e2 : (∫ x in Set.Ioi (-w), integrand .hyb p σ x) =
      (∫ x in Set.Ioc (-w) w, integrand .hyb p σ x) + ∫ x in Set.Ioi w, integrand .hyb p σ x := by
    rw [← setIntegral_union (Set.Ioc_disjoint_Ioi le_rfl) measurableSet_Ioi i.integrableOn i.integrableOn,
      Set.Ioc_union_Ioi_eq_Ioi (by linarith)]
  rw [sumRule, intervalIntegral.integral_of_le (by linarith)]
  linarith

theorem deficit (h : RetardedSE fun v => (σ v).R) (hp : 0 < p.Gam + p.Lam) {C : ℝ} (hC : ∀ x, ‖(σ x).R‖ ≤ C)
    {w : ℝ} (hw : |p.eps| + C < w) : 1 - sumRule .hyb p σ w ≤ 2 * (half p + C) / (Real.pi * (w - (|p.eps| + C))) := by
  have hC0 : 0 ≤ C := (norm_nonneg _).trans (hC 0)
  have hw0 : 0 ≤ w := by have := abs_nonneg p.eps; linarith
  obtain ⟨i, t⟩ := total h hp
  obtain ⟨j, e⟩ := tail_int hw
  rw [split h hp hw0, ← integral_comp_neg_Ioi]
  have b1 : ∫ x in Set.Ioi w, integrand .hyb p σ (-x) ≤ (half p + C) / Real.pi * (w - (|p.eps| + C))⁻¹ := by
    rw [← e, ← integral_const_mul]
    refine setIntegral_mono_on (i.comp_neg.integrableOn) (j.const_mul _) measurableSet_Ioi fun x hx => ?_
    have hx : w < x := hx
    have := le_tail (p := p) hC hp (x := -x) (by rw [abs_neg]; exact hw.trans (hx.trans_le (le_abs_self x)))
    rwa [abs_neg, abs_of_pos (hw0.trans_lt hx)] at this
  have b2 : ∫ x in Set.Ioi w, integrand .hyb p σ x ≤ (half p + C) / Real.pi * (w - (|p.eps| + C))⁻¹ := by
    rw [← e, ← integral_const_mul]
    refine setIntegral_mono_on (i.integrableOn) (j.const_mul _) measurableSet_Ioi fun x hx => ?_
    have hx : w < x := hx
    have := le_tail (p := p) hC hp (x := x) (hw.trans (hx.trans_le (le_abs_self x)))
    rwa [abs_of_pos (hw0.trans_lt hx)] at this
  refine (add_le_add b1 b2).trans (le_of_eq ?_)
  have hpi := Real.pi_ne_zero
  have : w - (|p.eps| + C) ≠ 0 := by intro h0; linarith
  field_simp
  ring

theorem temp_eq (s : SE) : gR .temp p s = gR .hyb { p with Lam := 0 } s := by
  simp [gR, gR5, gR2, g0Rinv]

theorem const_im (η x : ℝ) : integrand .hyb p (fun _ => ⟨Complex.I * η, 0, 0⟩) x = Filling.lor (half p - η) (x - p.eps) := by
  have := free_im (p := { p with Lam := p.Lam - 2 * η }) x
  rw [integrand_eq]
  have hh : half { p with Lam := p.Lam - 2 * η } = half p - η := by simp only [half]; ring
  have e2 : (lineG p (fun _ => ⟨Complex.I * η, 0, 0⟩) x).gr = (lineG { p with Lam := p.Lam - 2 * η } (fun _ => ⟨0, 0, 0⟩) x).gr := by
    rw [gr_eq, gr_eq, hh]
    show _ = 1 / (((x - p.eps : ℝ) : ℂ) + Complex.I * (half p - η : ℝ) - 0)
    congr 1
    push_cast
    ring
  rw [e2, this, hh]
  have hpi := Real.pi_ne_zero
  field_simp

end Verif.Spectrum
