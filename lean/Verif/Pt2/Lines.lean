import Verif.Pt2.Model
import Verif.Sde.PropsLimit
import Mathlib.Analysis.Calculus.ParametricIntegral
import Mathlib.Analysis.Calculus.Deriv.Star

/-! Propagators with a constant self-energy as functions of the flow parameter, and integrals over products of them. -/
namespace Verif.Pt2
open Verif.Symmetries Verif.Heredity Verif.Propagator Verif.Invariant Verif.Sde.Limit MeasureTheory Complex
open Verif.Freqs (Ch)

/-- The bare propagator at flow parameter `l`. -/
noncomputable def gAt (p : Par) (U l : ℝ) : ℝ → Keldysh.Prop2 ℂ := lineG { p with Lam := l } (bareSE U).at

/-- The bare single-scale propagator at flow parameter `l`. -/
noncomputable def sAt (p : Par) (U l : ℝ) : ℝ → Keldysh.Prop2 ℂ := lineS { p with Lam := l } (bareSE U).at (0 : SF).at

variable {p : Par} {U : ℝ}

theorem gAt_gr (l x : ℝ) : (gAt p U l x).gr = 1 / (((x - p.eps - U / 2 : ℝ) : ℂ) + I * ((p.Gam + l) / 2 : ℝ)) := by
  simp only [gAt, lineG, gR, gR2, g0Rinv, bareSE, SF.at]
  congr 1
  push_cast
  norm_num
  ring

theorem gAt_gk (l x : ℝ) : (gAt p U l x).gk = I * ((effFac true x p.T p.mu 0 * 2 * (gAt p U l x).gr.im : ℝ) : ℂ) := rfl

theorem sAt_gr (l x : ℝ) : (sAt p U l x).gr = -0.5 * I * (gAt p U l x).gr * (gAt p U l x).gr := by
  simp [sAt, gAt, lineS, lineG, sR, sR2, katR, gR, SF.at]

theorem sAt_gk (l x : ℝ) : (sAt p U l x).gk = I * ((effFac true x p.T p.mu 0 * 2 * (sAt p U l x).gr.im : ℝ) : ℂ) := by
  simp [sAt, lineS, sKeq, katK, katR, SF.at]

theorem den_ne {l : ℝ} (h : 0 < p.Gam + l) (x : ℝ) : ((x - p.eps - U / 2 : ℝ) : ℂ) + I * ((p.Gam + l) / 2 : ℝ) ≠ 0 := by
  intro h0
  have := congrArg Complex.im h0
  simp at this
  linarith

theorem gr_deriv {Λ : ℝ} (h : 0 < p.Gam + Λ) (x : ℝ) :
    HasDerivAt (fun l => (gAt p U l x).gr) (sAt p U Λ x).gr Λ := by
  simp only [gAt_gr, sAt_gr]
  have h1 : HasDerivAt (fun l : ℝ => ((x - p.eps - U / 2 : ℝ) : ℂ) + I * ((p.Gam + l) / 2 : ℝ)) (I * (1 / 2 : ℝ)) Λ :=
    ((((hasDerivAt_id Λ).const_add p.Gam).div_const 2).ofReal_comp.const_mul I).const_add _
  have h2 := (hasDerivAt_const Λ (1 : ℂ)).fun_div h1 (den_ne h x)
  refine h2.congr_deriv ?_
  have := den_ne (U := U) h x
  generalize ((x - p.eps - U / 2 : ℝ) : ℂ) + I * ((p.Gam + Λ) / 2 : ℝ) = D at this
  push_cast
  field_simp
  norm_num
  ring

theorem comp_deriv {Λ : ℝ} (h : 0 < p.Gam + Λ) (x : ℝ) (a b : Bool) :
    HasDerivAt (fun l => comp (gAt p U l x) a b) (comp (sAt p U Λ x) a b) Λ := by
  have g := gr_deriv (U := U) h x
  cases a <;> cases b <;> simp only [comp]
  · exact hasDerivAt_const _ _
  · exact g.star
  · exact g
  · simp only [gAt_gk, sAt_gk]
    have him : HasDerivAt (fun l => (gAt p U l x).gr.im) (sAt p U Λ x).gr.im Λ :=
      Complex.imCLM.hasFDerivAt.comp_hasDerivAt Λ g
    exact ((him.const_mul (effFac true x p.T p.mu 0 * 2)).ofReal_comp).const_mul I

/-! ### Bounds -/

theorem fac_bound (x T mu : ℝ) : |effFac true x T mu 0| ≤ 1 := by
  simp only [effFac, if_true, fermiFac]
  exact (Real.abs_tanh_lt_one _).le

theorem gr_bound {l h0 : ℝ} (hp : 0 < h0) (h : h0 ≤ (p.Gam + l) / 2) (x : ℝ) :
    ‖(gAt p U l x).gr‖ ≤ (1 + (1 + |p.eps + U / 2|) / h0) * (1 + ‖x‖)⁻¹ := by
  rw [gAt_gr, norm_div, norm_one]
  set D : ℂ := ((x - p.eps - U / 2 : ℝ) : ℂ) + I * ((p.Gam + l) / 2 : ℝ) with hD
  have him : D.im = (p.Gam + l) / 2 := by simp [hD]
  have hre : D.re = x - p.eps - U / 2 := by simp [hD]
  have l1 : h0 ≤ ‖D‖ := h.trans ((le_abs_self _).trans (him ▸ Complex.abs_im_le_norm D))
  have l2 : |x - p.eps - U / 2| ≤ ‖D‖ := hre ▸ Complex.abs_re_le_norm D
  have pos : 0 < ‖D‖ := hp.trans_le l1
  have l3 : |x| ≤ |x - p.eps - U / 2| + |p.eps + U / 2| := by
    have := abs_add_le (x - p.eps - U / 2) (p.eps + U / 2)
    rwa [show x - p.eps - U / 2 + (p.eps + U / 2) = x by ring] at this
  have hx : 0 < 1 + ‖x‖ := by positivity
  rw [div_le_iff₀ pos, mul_assoc, inv_mul_eq_div, ← mul_div_assoc, le_div_iff₀ hx, one_mul, Real.norm_eq_abs, add_mul, one_mul]
  have l4 : 1 + |p.eps + U / 2| ≤ (1 + |p.eps + U / 2|) / h0 * ‖D‖ := by
    rw [div_mul_eq_mul_div, le_div_iff₀ hp]
    exact mul_le_mul_of_nonneg_left l1 (by positivity)
  linarith

/-- A common bound of propagator and single-scale propagator. -/
noncomputable def bnd (p : Par) (U h0 : ℝ) : ℝ :=
  2 * (1 + (1 + |p.eps + U / 2|) / h0) * (1 + (1 + (1 + |p.eps + U / 2|) / h0))

theorem lines_bound {l h0 : ℝ} (hp : 0 < h0) (h : h0 ≤ (p.Gam + l) / 2) (x : ℝ) (a b : Bool) :
    ‖comp (gAt p U l x) a b‖ ≤ bnd p U h0 * (1 + ‖x‖)⁻¹ ∧ ‖comp (sAt p U l x) a b‖ ≤ bnd p U h0 * (1 + ‖x‖)⁻¹ := by
  have g := gr_bound (U := U) hp h x
  set A := 1 + (1 + |p.eps + U / 2|) / h0 with hA
  set r := (1 + ‖x‖)⁻¹ with hr
  have hA1 : 1 ≤ A := by rw [hA]; have : 0 ≤ (1 + |p.eps + U / 2|) / h0 := by positivity
                         linarith
  have hr0 : 0 ≤ r := by positivity
  have hr1 : r ≤ 1 := inv_le_one_of_one_le₀ (by simp)
  have hb : bnd p U h0 = 2 * A * (1 + A) := rfl
  have gs : ‖(sAt p U l x).gr‖ ≤ A * A * r := by
    rw [sAt_gr, norm_mul, norm_mul, norm_mul]
    have e : ‖(-0.5 : ℂ)‖ = 1 / 2 := by rw [norm_neg]; norm_num
    rw [e, Complex.norm_I]
    have : ‖(gAt p U l x).gr‖ * ‖(gAt p U l x).gr‖ ≤ (A * r) * (A * r) := mul_le_mul g g (norm_nonneg _) (by positivity)
    have h2 : (A * r) * (A * r) ≤ A * A * r := by nlinarith [mul_nonneg (mul_self_nonneg A) (mul_nonneg hr0 (sub_nonneg.2 hr1))]
    nlinarith [mul_nonneg (norm_nonneg (gAt p U l x).gr) (norm_nonneg (gAt p U l x).gr)]
  have kk : ∀ (z : ℂ) (M : ℝ), ‖z‖ ≤ M → ‖I * ((effFac true x p.T p.mu 0 * 2 * z.im : ℝ) : ℂ)‖ ≤ 2 * M := by
    intro z M hz
    rw [norm_mul, Complex.norm_I, one_mul, Complex.norm_real, Real.norm_eq_abs, abs_mul, abs_mul, abs_two]
    have h1 := fac_bound x p.T p.mu
    have h2 := (Complex.abs_im_le_norm z).trans hz
    have := mul_le_mul h1 h2 (abs_nonneg _) zero_le_one
    nlinarith
  have q1 : A * r ≤ bnd p U h0 * r := by rw [hb]; nlinarith [mul_nonneg (mul_nonneg (zero_le_one.trans hA1) (zero_le_one.trans hA1)) hr0, mul_nonneg (zero_le_one.trans hA1) hr0]
  have q2 : 2 * (A * r) ≤ bnd p U h0 * r := by rw [hb]; nlinarith [mul_nonneg (mul_nonneg (zero_le_one.trans hA1) (zero_le_one.trans hA1)) hr0, mul_nonneg (zero_le_one.trans hA1) hr0]
  have q3 : A * A * r ≤ bnd p U h0 * r := by rw [hb]; nlinarith [mul_nonneg (mul_nonneg (zero_le_one.trans hA1) (zero_le_one.trans hA1)) hr0, mul_nonneg (zero_le_one.trans hA1) hr0]
  have q4 : 2 * (A * A * r) ≤ bnd p U h0 * r := by rw [hb]; nlinarith [mul_nonneg (mul_nonneg (zero_le_one.trans hA1) (zero_le_one.trans hA1)) hr0, mul_nonneg (zero_le_one.trans hA1) hr0]
  have q0 : 0 ≤ bnd p U h0 * r := le_trans (by positivity) q1
  cases a <;> cases b <;> simp only [comp]
  · simpa using q0
  · simp only [norm_star]; exact ⟨g.trans q1, gs.trans q3⟩
  · exact ⟨g.trans q1, gs.trans q3⟩
  · rw [gAt_gk, sAt_gk]
    exact ⟨(kk _ _ g).trans q2, (kk _ _ gs).trans q4⟩

theorem bnd_nonneg {h0 : ℝ} (hp : 0 < h0) : 0 ≤ bnd p U h0 := by unfold bnd; positivity

theorem tanh_meas (p : Par) : Measurable fun x : ℝ => Real.tanh ((x - p.mu) / (2 * p.T)) := by
  simp only [Real.tanh_eq_sinh_div_cosh]
  exact (Real.measurable_sinh.comp (by fun_prop)).div (Real.measurable_cosh.comp (by fun_prop))

theorem gAt_decays {l : ℝ} (h : 0 < p.Gam + l) : Decays (gAt p U l) := by
  have mr : Measurable fun x => (gAt p U l x).gr := by
    simp only [gAt_gr]
    fun_prop
  have hh : 0 < (p.Gam + l) / 2 := by positivity
  refine ⟨mr, ?_, bnd p U ((p.Gam + l) / 2), fun x => ?_⟩
  · simp only [gAt_gk, effFac, if_true, fermiFac]
    have ht := tanh_meas p
    exact (Complex.measurable_ofReal.comp ((ht.mul_const 2).mul (Complex.measurable_im.comp mr))).const_mul I
  · have h1 := (lines_bound (p := p) (U := U) hh le_rfl x true false).1
    have h2 := (lines_bound (p := p) (U := U) hh le_rfl x true true).1
    rw [div_eq_mul_inv]
    exact ⟨h1, h2⟩

theorem sAt_decays {l : ℝ} (h : 0 < p.Gam + l) : Decays (sAt p U l) := by
  have mr : Measurable fun x => (sAt p U l x).gr := by
    simp only [sAt_gr, gAt_gr]
    fun_prop
  have hh : 0 < (p.Gam + l) / 2 := by positivity
  refine ⟨mr, ?_, bnd p U ((p.Gam + l) / 2), fun x => ?_⟩
  · simp only [sAt_gk, effFac, if_true, fermiFac]
    have ht := tanh_meas p
    exact (Complex.measurable_ofReal.comp ((ht.mul_const 2).mul (Complex.measurable_im.comp mr))).const_mul I
  · have h1 := (lines_bound (p := p) (U := U) hh le_rfl x true false).2
    have h2 := (lines_bound (p := p) (U := U) hh le_rfl x true true).2
    rw [div_eq_mul_inv]
    exact ⟨h1, h2⟩

/-! ### Derivatives of integrals -/

/-- Flow parameters near `Λ`. -/
theorem near {Λ l : ℝ} (hl : l ∈ Metric.ball Λ ((p.Gam + Λ) / 2)) : (p.Gam + Λ) / 4 ≤ (p.Gam + l) / 2 := by
  rw [Metric.mem_ball, Real.dist_eq, abs_lt] at hl
  linarith [hl.1]

theorem pair_deriv {Λ : ℝ} (h : 0 < p.Gam + Λ) {y z : ℝ → ℝ} (hy : Measurable y) (hz : Measurable z)
    (iy : Integrable fun x => ((1 + ‖y x‖)⁻¹) ^ 2) (iz : Integrable fun x => ((1 + ‖z x‖)⁻¹) ^ 2) (a b c d : Bool) :
    (∀ l, 0 < p.Gam + l → Integrable fun x => comp (gAt p U l (y x)) a c * comp (gAt p U l (z x)) b d) ∧
    Integrable (fun x => comp (gAt p U Λ (y x)) a c * comp (sAt p U Λ (z x)) b d + comp (sAt p U Λ (y x)) a c * comp (gAt p U Λ (z x)) b d) ∧
    HasDerivAt (fun l => ∫ x, comp (gAt p U l (y x)) a c * comp (gAt p U l (z x)) b d)
      (∫ x, (comp (gAt p U Λ (y x)) a c * comp (sAt p U Λ (z x)) b d + comp (sAt p U Λ (y x)) a c * comp (gAt p U Λ (z x)) b d)) Λ := by
  have mg : ∀ l, 0 < p.Gam + l → ∀ a b, Measurable fun x => comp (gAt p U l x) a b := fun l hl => comp_meas (gAt_decays hl)
  have ms : ∀ l, 0 < p.Gam + l → ∀ a b, Measurable fun x => comp (sAt p U l x) a b := fun l hl => comp_meas (sAt_decays hl)
  have two : ∀ {B A C : ℝ} {u w : ℂ} {s r : ℝ}, 0 ≤ B → 0 ≤ s → 0 ≤ r → ‖u‖ ≤ B * s → ‖w‖ ≤ B * r → ‖u * w‖ ≤ B * B * (s ^ 2 + r ^ 2) := by
    intro B A C u w s r hB hs hr hu hw
    rw [norm_mul]
    calc _ ≤ (B * s) * (B * r) := mul_le_mul hu hw (norm_nonneg _) (mul_nonneg hB hs)
      _ = B * B * (s * r) := by ring
      _ ≤ _ := by
        refine mul_le_mul_of_nonneg_left ?_ (mul_nonneg hB hB)
        nlinarith [sq_nonneg (s - r), sq_nonneg (s + r)]
  have int : ∀ l, 0 < p.Gam + l → Integrable fun x => comp (gAt p U l (y x)) a c * comp (gAt p U l (z x)) b d := by
    intro l hl
    have hh : 0 < (p.Gam + l) / 2 := by positivity
    refine ((iy.add iz).const_mul (bnd p U ((p.Gam + l) / 2) * bnd p U ((p.Gam + l) / 2))).mono'
      (((mg l hl a c).comp hy).mul ((mg l hl b d).comp hz)).aestronglyMeasurable (Filter.Eventually.of_forall fun x => ?_)
    exact two (A := 0) (C := 0) (bnd_nonneg hh) (by positivity) (by positivity) (lines_bound hh le_rfl _ _ _).1 (lines_bound hh le_rfl _ _ _).1
  have h4 : 0 < (p.Gam + Λ) / 4 := by positivity
  have key := hasDerivAt_integral_of_dominated_loc_of_deriv_le (μ := volume) (𝕜 := ℝ)
    (F := fun l x => comp (gAt p U l (y x)) a c * comp (gAt p U l (z x)) b d)
    (F' := fun l x => comp (gAt p U l (y x)) a c * comp (sAt p U l (z x)) b d + comp (sAt p U l (y x)) a c * comp (gAt p U l (z x)) b d)
    (bound := fun x => 2 * (bnd p U ((p.Gam + Λ) / 4) * bnd p U ((p.Gam + Λ) / 4)) * (((1 + ‖y x‖)⁻¹) ^ 2 + ((1 + ‖z x‖)⁻¹) ^ 2))
    (x₀ := Λ) (s := Metric.ball Λ ((p.Gam + Λ) / 2)) (Metric.ball_mem_nhds Λ (by positivity))
    (by
      filter_upwards [Metric.ball_mem_nhds Λ (show 0 < (p.Gam + Λ) / 2 by positivity)] with l hl
      have := near hl
      exact (int l (by linarith)).aestronglyMeasurable)
    (int Λ h)
    ((((mg Λ h a c).comp hy).mul ((ms Λ h b d).comp hz)).add (((ms Λ h a c).comp hy).mul ((mg Λ h b d).comp hz))).aestronglyMeasurable
    (Filter.Eventually.of_forall fun x l hl => by
      have n := near hl
      have b1 := two (A := 0) (C := 0) (bnd_nonneg (p := p) (U := U) h4) (by positivity) (by positivity) (lines_bound (p := p) (U := U) h4 n (y x) a c).1 (lines_bound (p := p) (U := U) h4 n (z x) b d).2
      have b2 := two (A := 0) (C := 0) (bnd_nonneg (p := p) (U := U) h4) (by positivity) (by positivity) (lines_bound (p := p) (U := U) h4 n (y x) a c).2 (lines_bound (p := p) (U := U) h4 n (z x) b d).1
      refine (norm_add_le _ _).trans ((add_le_add b1 b2).trans (le_of_eq ?_))
      ring)
    ((iy.add iz).const_mul _)
    (Filter.Eventually.of_forall fun x l hl => by
      have n := near hl
      have hl' : 0 < p.Gam + l := by linarith
      refine ((comp_deriv (U := U) hl' (y x) a c).mul (comp_deriv (U := U) hl' (z x) b d)).congr_deriv ?_
      ring)
  exact ⟨int, key.1, key.2⟩

end Verif.Pt2
