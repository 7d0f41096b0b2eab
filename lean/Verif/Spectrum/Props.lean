import Verif.Spectrum.Lemmas

namespace Verif.Spectrum
open Verif.Heredity Verif.Propagator Verif.Invariant Verif.Sde.Limit Verif.Sde Verif.Pt2 MeasureTheory
open Filter Topology

variable {p : Par} {σ : ℝ → SE}

/-- C167: a propagator with a causal self-energy has a spectral function of total weight one. -/
theorem c167_total (h : RetardedSE fun v => (σ v).R) (hp : 0 < p.Gam + p.Lam) :
    Integrable (integrand .hyb p σ) ∧ ∫ x, integrand .hyb p σ x = 1 := total h hp

/-- C167: the number the check prints is at least 0 and less than 1, grows with the range of the frequency grid and tends to 1. -/
theorem c167_value (h : RetardedSE fun v => (σ v).R) (hp : 0 < p.Gam + p.Lam) :
    (∀ w, 0 ≤ w → 0 ≤ sumRule .hyb p σ w ∧ sumRule .hyb p σ w < 1) ∧
    (∀ w w', 0 ≤ w → w < w' → sumRule .hyb p σ w < sumRule .hyb p σ w') ∧
    Tendsto (sumRule .hyb p σ) atTop (𝓝 1) := by
  obtain ⟨i, t⟩ := total h hp
  have ii : ∀ a b, IntervalIntegrable (integrand .hyb p σ) volume a b := fun a b => i.intervalIntegrable
  have pp := pos h hp
  have mono : ∀ w w', 0 ≤ w → w < w' → sumRule .hyb p σ w < sumRule .hyb p σ w' := fun w w' hw hww => by
    unfold sumRule
    rw [← intervalIntegral.integral_add_adjacent_intervals (ii (-w') (-w)) (ii (-w) w'),
      ← intervalIntegral.integral_add_adjacent_intervals (ii (-w) w) (ii w w')]
    have a := intervalIntegral.intervalIntegral_pos_of_pos (ii (-w') (-w)) pp (by linarith)
    have b := intervalIntegral.intervalIntegral_pos_of_pos (ii w w') pp hww
    linarith
  have lim : Tendsto (sumRule .hyb p σ) atTop (𝓝 1) := by
    have := intervalIntegral_tendsto_integral i tendsto_neg_atTop_atBot tendsto_id
    rw [t] at this
    exact this
  refine ⟨fun w hw => ⟨?_, ?_⟩, mono, lim⟩
  · exact intervalIntegral.integral_nonneg (by linarith) fun x _ => (pp x).le
  · have a := mono w (w + 1) hw (by linarith)
    refine a.trans_le (ge_of_tendsto lim ?_)
    filter_upwards [eventually_gt_atTop (w + 1)] with w' hw'
    exact (mono _ _ (by linarith) hw').le

/-- C167: how far the printed number may be from 1 although the sum rule holds: at most `(Γ + Λ + 2C) / (π (wmax - |ε| - C))`, where `C`
bounds the self-energy. -/
theorem c167_deficit (h : RetardedSE fun v => (σ v).R) (hp : 0 < p.Gam + p.Lam) {C : ℝ} (hC : ∀ x, ‖(σ x).R‖ ≤ C)
    {w : ℝ} (hw : |p.eps| + C < w) : 1 - sumRule .hyb p σ w ≤ (p.Gam + p.Lam + 2 * C) / (Real.pi * (w - (|p.eps| + C))) := by
  have := deficit h hp hC hw
  have e : 2 * (half p + C) = p.Gam + p.Lam + 2 * C := by unfold half; ring
  rwa [e] at this

/-- C167: for a static self-energy `h` the number in closed form. -/
theorem c167_free (hp : 0 < p.Gam + p.Lam) (w h : ℝ) :
    sumRule .hyb p (fun _ => ⟨h, 0, 0⟩) w = (Real.arctan ((w - (p.eps + h)) / half p) + Real.arctan ((w + (p.eps + h)) / half p)) / Real.pi := by
  have hD : 0 < half p := by unfold half; positivity
  have e : integrand .hyb p (fun _ => ⟨h, 0, 0⟩) = fun x => Filling.lor (half p) (x - (p.eps + h)) := by
    funext x
    have := free_im (p := { p with eps := p.eps + h }) x
    rw [integrand_eq]
    have e2 : (lineG p (fun _ => ⟨h, 0, 0⟩) x).gr = (lineG { p with eps := p.eps + h } (fun _ => ⟨0, 0, 0⟩) x).gr := by
      rw [gr_eq, gr_eq]
      show _ = 1 / (((x - (p.eps + h) : ℝ) : ℂ) + Complex.I * half p - 0)
      congr 1
      push_cast
      ring
    rw [e2, this]
    have hpi := Real.pi_ne_zero
    show -Real.pi * Filling.lor (half p) (x - (p.eps + h)) / (-Real.pi) = _
    field_simp
  unfold sumRule
  rw [e]
  have d : ∀ x ∈ Set.uIcc (-w) w, HasDerivAt (fun x => 1 / Real.pi * Real.arctan ((x - (p.eps + h)) / half p)) (Filling.lor (half p) (x - (p.eps + h))) x :=
    fun x _ => (Filling.hasDerivAt_arctan_div hD.ne' (p.eps + h) x).const_mul _
  rw [intervalIntegral.integral_eq_sub_of_hasDerivAt d ((Filling.integrable_lor_sub hD _).intervalIntegrable)]
  have : (-w - (p.eps + h)) / half p = -((w + (p.eps + h)) / half p) := by ring
  rw [this, Real.arctan_neg]
  ring

/-- C167: "Result of the integral, which should be 1": it is 1 for no causal self-energy and no finite frequency grid. -/
theorem c167_one_refuted (h : RetardedSE fun v => (σ v).R) (hp : 0 < p.Gam + p.Lam) {w : ℝ} (hw : 0 ≤ w) :
    sumRule .hyb p σ w ≠ 1 := ((c167_value h hp).1 w hw).2.ne

/-- C167: with the temperature flow, the sum rule holds as well (the width is that of the reservoir alone). -/
theorem c167_temperature (h : RetardedSE fun v => (σ v).R) (hp : 0 < p.Gam) :
    Integrable (integrand .temp p σ) ∧ ∫ x, integrand .temp p σ x = 1 := by
  have e : integrand .temp p σ = integrand .hyb { p with Lam := 0 } σ := by
    funext x; simp only [integrand, temp_eq]
  rw [e]
  exact total h (by simpa using hp)

/-- C167: with the interaction flow, the integral is the flow parameter. -/
theorem c167_interaction (h : RetardedSE fun v => (σ v).R) (hp : 0 < p.Gam) (hL : 0 ≤ p.Lam) (a : ℝ) (ha : ∀ v, (σ v).asymp = a) :
    Integrable (integrand .inter p σ) ∧ ∫ x, integrand .inter p σ x = p.Lam := by
  let s : ℝ → SE := fun v => ⟨a + p.Lam * ((σ v).R - a), 0, 0⟩
  have hs : RetardedSE fun v => (s v).R := by
    obtain ⟨F, C, h1, h2, h3, h4, h5⟩ := h
    refine ⟨fun z => a + p.Lam * (F z - a), |a| + |p.Lam| * (C + |a|), ?_, ?_, fun x => ?_, fun z hz => ?_, fun z hz => ?_⟩
    · exact continuousOn_const.add (continuousOn_const.mul (h1.sub continuousOn_const))
    · exact (differentiableOn_const _).add ((differentiableOn_const _).mul (h2.sub (differentiableOn_const _)))
    · simp only [s, h3]
    · refine (norm_add_le _ _).trans ?_
      rw [norm_mul, Complex.norm_real, Complex.norm_real, Real.norm_eq_abs, Real.norm_eq_abs]
      have := (norm_sub_le (F z) a).trans (add_le_add (h4 z hz) (le_of_eq (by rw [Complex.norm_real, Real.norm_eq_abs])))
      have := mul_le_mul_of_nonneg_left this (abs_nonneg p.Lam)
      linarith
    · have := mul_nonpos_of_nonneg_of_nonpos hL (h5 z hz)
      simpa using this
  obtain ⟨i, t⟩ := total (p := { p with Lam := 0 }) hs (by simpa using hp)
  have e : integrand .inter p σ = fun x => p.Lam * integrand .hyb { p with Lam := 0 } s x := by
    funext x
    simp only [integrand, gR, gR4, gR2, ha, s, g0Rinv]
    rw [show (p.Lam : ℂ) / ((x - p.eps : ℝ) + Complex.I * p.Gam * 0.5 - a - p.Lam * ((σ x).R - a)) =
      p.Lam * (1 / ((x - p.eps : ℝ) + Complex.I * p.Gam * 0.5 + Complex.I * (0 : ℝ) * 0.5 - (a + p.Lam * ((σ x).R - a)))) by
        rw [mul_one_div]; congr 1; push_cast; ring]
    rw [Complex.im_ofReal_mul, mul_div_assoc]
  rw [e]
  exact ⟨i.const_mul _, by rw [integral_const_mul, t, mul_one]⟩

/-- C167: so with the interaction flow the result stays away from 1 until the end of the flow, however large the frequency grid. -/
theorem c167_interaction_refuted (h : RetardedSE fun v => (σ v).R) (hp : 0 < p.Gam) (hL : 0 ≤ p.Lam) (h1 : p.Lam < 1) (a : ℝ)
    (ha : ∀ v, (σ v).asymp = a) : ∃ d > 0, ∀ᶠ w in atTop, sumRule .inter p σ w < 1 - d := by
  obtain ⟨i, t⟩ := c167_interaction h hp hL a ha
  have lim := intervalIntegral_tendsto_integral i tendsto_neg_atTop_atBot tendsto_id
  rw [t] at lim
  refine ⟨(1 - p.Lam) / 2, by linarith, ?_⟩
  exact lim.eventually_lt_const (by linarith)

/-- C167: along the flow of the hybridisation the weight does not change: the single-scale propagator, with the Katanin extension, has
spectral weight zero. -/
theorem c167_flow {dσ : ℝ → SE} (h : RetardedSE fun v => (σ v).R) (hd : Upper fun v => (dσ v).R) (hp : 0 < p.Gam + p.Lam) :
    ∫ x, ((lineS p σ dσ x).gr).im / (-Real.pi) = 0 := by
  have g := retarded_G h hp
  have n := ((g.mul_upper (Upper.const (-0.5 * Complex.I))).null_mul g).add ((g.mul_upper hd).null_mul g)
  have n' : Null fun x => (lineS p σ dσ x).gr := n.congr fun x => by
    simp only [lineS, lineG, sR, sR2, katR, gR]
    ring
  rw [integral_div]
  have := integral_im n'.1
  rw [n'.2] at this
  have e : ∫ x, ((lineS p σ dσ x).gr).im = 0 := by simpa using this
  rw [e, zero_div]

/-- C167: the check does not notice every violation of causality: a self-energy with a constant positive imaginary part less than the
hybridisation is not causal and gives 1. -/
theorem c167_blind {η : ℝ} (h0 : 0 < η) (h1 : 2 * η < p.Gam + p.Lam) :
    ¬ RetardedSE (fun _ : ℝ => Complex.I * η) ∧ ∫ x, integrand .hyb p (fun _ => ⟨Complex.I * η, 0, 0⟩) x = 1 := by
  refine ⟨fun ⟨F, C, _, _, h3, _, h5⟩ => ?_, ?_⟩
  · have := h5 (0 : ℝ) (by simp)
    rw [h3] at this
    simp at this
    linarith
  · rw [integral_congr_ae (Eventually.of_forall fun x => const_im η x)]
    exact Filling.integral_lor_sub (by unfold half; linarith) _

/-- C167: beyond the hybridisation it gives -1. -/
theorem c167_notices {η : ℝ} (h1 : p.Gam + p.Lam < 2 * η) :
    ∫ x, integrand .hyb p (fun _ => ⟨Complex.I * η, 0, 0⟩) x = -1 := by
  rw [integral_congr_ae (Eventually.of_forall fun x => const_im η x)]
  have : ∀ x, Filling.lor (half p - η) (x - p.eps) = -Filling.lor (η - half p) (x - p.eps) := fun x => by
    simp only [Filling.lor]
    rw [show (half p - η) ^ 2 = (η - half p) ^ 2 by ring]
    ring
  simp only [this]
  rw [integral_neg, Filling.integral_lor_sub (by unfold half; linarith)]

/-- C167: the state of second-order perturbation theory obeys the sum rule. -/
theorem c167_pt2 (hp : 0 < p.Gam + p.Lam) (U w : ℝ) :
    ∃ s : SF, TendsTo (fun Δ => (state2 Δ p U (bareK w)).1) s ∧ ∫ x, integrand .hyb p s.at x = 1 := by
  obtain ⟨_, s, hs, hc⟩ := Causal.c166_pt2 hp U w
  exact ⟨s, hs, (total (σ := s.at) hc.retarded hp).2⟩

/-! ### Examples -/

/-- Parameters with width one: `Γ = 1/2`, `Λ = 3/2`. -/
noncomputable def par : Par := { Lam := 3 / 2, eps := 0, Gam := 1 / 2, T := 1 / 10, mu := 0, v := 0 }

/-- A causal self-energy that is not constant: `1 / (v + i)`. -/
theorem retSE_pole : RetardedSE fun v : ℝ => 1 / ((v : ℂ) + Complex.I) := by
  have ne : ∀ z : ℂ, 0 ≤ z.im → z + Complex.I ≠ 0 := fun z hz h => by
    have := congrArg Complex.im h
    simp at this
    linarith
  refine ⟨fun z => 1 / (z + Complex.I), 1, ?_, ?_, fun _ => rfl, fun z hz => ?_, fun z hz => ?_⟩
  · exact continuousOn_const.div (continuousOn_id.add continuousOn_const) fun z hz => ne z hz
  · exact (differentiableOn_const _).div (differentiableOn_id.add (differentiableOn_const _)) fun z hz => ne z (le_of_lt hz)
  · rw [norm_div, norm_one]
    refine div_le_one_of_le₀ ?_ (norm_nonneg _)
    refine le_trans ?_ (Complex.abs_im_le_norm _)
    rw [Complex.add_im, Complex.I_im, abs_of_nonneg] <;> linarith
  · show (1 / (z + Complex.I)).im ≤ 0
    rw [one_div, Complex.inv_im]
    refine div_nonpos_of_nonpos_of_nonneg ?_ (Complex.normSq_nonneg _)
    rw [Complex.add_im, Complex.I_im]
    linarith

example : ∫ x, integrand .hyb par (fun v => ⟨1 / ((v : ℂ) + Complex.I), 0, 0⟩) x = 1 :=
  (c167_total retSE_pole (by norm_num [par])).2

/-- On a grid up to 101 a printed number of 0.98 contradicts the sum rule, 0.99 does not. -/
example : 1 - sumRule .hyb par (fun v => ⟨1 / ((v : ℂ) + Complex.I), 0, 0⟩) 101 ≤ 4 / (Real.pi * 100) := by
  have := c167_deficit (p := par) (σ := fun v => ⟨1 / ((v : ℂ) + Complex.I), 0, 0⟩) retSE_pole (by norm_num [par]) (C := 1)
    (fun x => by
      rw [norm_div, norm_one]
      refine div_le_one_of_le₀ ?_ (norm_nonneg _)
      refine le_trans ?_ (Complex.abs_im_le_norm _)
      simp) (w := 101) (by norm_num [par])
  norm_num [par] at this ⊢
  exact this

/-- Without interaction, half of the weight lies within the width. -/
example : sumRule .hyb par (fun _ => ⟨(0 : ℝ), 0, 0⟩) 1 = 1 / 2 := by
  rw [c167_free (by norm_num [par])]
  norm_num [par, half]
  field_simp
  norm_num

example : ∫ x, integrand .inter { par with Lam := 1 / 3 } (fun v => ⟨1 / ((v : ℂ) + Complex.I), 0, (0 : ℝ)⟩) x = 1 / 3 :=
  (c167_interaction retSE_pole (by norm_num [par]) (by norm_num) 0 fun _ => rfl).2

example : ∫ x, integrand .hyb par (fun _ => ⟨Complex.I * (1 / 2 : ℝ), 0, 0⟩) x = 1 := (c167_blind (by norm_num) (by norm_num [par])).2

end Verif.Spectrum
