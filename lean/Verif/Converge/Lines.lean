import Verif.Converge.Kernel
import Verif.Converge.Spec

/-! Bounds of propagators whose self-energy is close to a real constant. -/
namespace Verif.Converge
open Verif.Symmetries Verif.Heredity Verif.Propagator Verif.Invariant Verif.Sde.Limit MeasureTheory
open Verif.Spectrum (half)
open Verif.Freqs (Ch)

/-- A propagator bounded by the decaying function. -/
structure Line (k h e : ℝ) (G : ℝ → Keldysh.Prop2 ℂ) : Prop where
  meas : ∀ a b, Measurable fun x => comp (G x) a b
  bound : ∀ x a b, ‖comp (G x) a b‖ ≤ k * rho h e x

/-- Two propagators whose difference is bounded by the decaying function. -/
def NearG (d h e : ℝ) (G G' : ℝ → Keldysh.Prop2 ℂ) : Prop := ∀ x a b, ‖comp (G x) a b - comp (G' x) a b‖ ≤ d * rho h e x

variable {p : Par} {σ σ' : SF} {c0 : ℝ}

/-- The denominator of the propagator. -/
noncomputable def den (p : Par) (f : ℝ → ℂ) (x : ℝ) : ℂ := (x - p.eps : ℝ) + Complex.I * half p - f x

theorem gr_den (x : ℝ) : (lineG p σ.at x).gr = 1 / den p σ.1 x := Spectrum.gr_eq x

theorem den_low (hp : 0 < p.Gam + p.Lam) (h : NearR (half p / 2) σ.1 fun _ => c0) (x : ℝ) :
    half p / (4 * rho (half p) (p.eps + c0) x) ≤ ‖den p σ.1 x‖ := by
  have hh := Weak.half_pos hp
  set z : ℂ := (x - p.eps : ℝ) + Complex.I * half p - (c0 : ℂ) with hz
  have e1 : den p σ.1 x = z - (σ.1 x - c0) := by rw [den, hz]; ring
  have im : half p ≤ ‖z‖ := by
    have := Complex.abs_im_le_norm z
    have e : z.im = half p := by rw [hz]; simp
    rwa [e, abs_of_pos hh] at this
  have re : |x - (p.eps + c0)| ≤ ‖z‖ := by
    have := Complex.abs_re_le_norm z
    have e : z.re = x - (p.eps + c0) := by rw [hz]; simp; ring
    rwa [e] at this
  have low : ‖z‖ - half p / 2 ≤ ‖den p σ.1 x‖ := by
    rw [e1]
    have := norm_sub_norm_le z (σ.1 x - c0)
    have := h x
    simp only at this
    linarith
  have er : half p / (4 * rho (half p) (p.eps + c0) x) = (half p + |x - (p.eps + c0)|) / 4 := by
    rw [rho, abs_div, abs_of_pos hh]
    have : half p + |x - (p.eps + c0)| ≠ 0 := by positivity
    field_simp
  rw [er]
  linarith

theorem gr_le (hp : 0 < p.Gam + p.Lam) (h : NearR (half p / 2) σ.1 fun _ => c0) (x : ℝ) :
    ‖(lineG p σ.at x).gr‖ ≤ 4 / half p * rho (half p) (p.eps + c0) x := by
  have hh := Weak.half_pos hp
  have r := rho_pos (half p) (p.eps + c0) x
  rw [gr_den, norm_div, norm_one]
  refine (one_div_le_one_div_of_le (by positivity) (den_low hp h x)).trans (le_of_eq ?_)
  field_simp

theorem gr_near (hp : 0 < p.Gam + p.Lam) (h : NearR (half p / 2) σ.1 fun _ => c0) (h' : NearR (half p / 2) σ'.1 fun _ => c0)
    {d : ℝ} (hd : NearR d σ.1 σ'.1) (x : ℝ) :
    ‖(lineG p σ.at x).gr - (lineG p σ'.at x).gr‖ ≤ 16 * d / half p ^ 2 * rho (half p) (p.eps + c0) x := by
  have hh := Weak.half_pos hp
  have r := rho_pos (half p) (p.eps + c0) x
  have r1 := rho_le (half p) (p.eps + c0) x
  have n1 : den p σ.1 x ≠ 0 := norm_pos_iff.1 (lt_of_lt_of_le (by positivity) (den_low hp h x))
  have n2 : den p σ'.1 x ≠ 0 := norm_pos_iff.1 (lt_of_lt_of_le (by positivity) (den_low hp h' x))
  have e : (lineG p σ.at x).gr - (lineG p σ'.at x).gr = (σ.1 x - σ'.1 x) * ((lineG p σ.at x).gr * (lineG p σ'.at x).gr) := by
    have : σ.1 x - σ'.1 x = den p σ'.1 x - den p σ.1 x := by simp only [den]; ring
    rw [gr_den, gr_den, this]
    field_simp
  have d0 : 0 ≤ d := (norm_nonneg _).trans (hd x)
  rw [e, norm_mul, norm_mul]
  have b := mul_le_mul (gr_le hp h x) (gr_le hp h' x) (norm_nonneg _) (by positivity)
  have c := mul_le_mul (hd x) b (by positivity) d0
  refine c.trans ?_
  have e2 : d * (4 / half p * rho (half p) (p.eps + c0) x * (4 / half p * rho (half p) (p.eps + c0) x)) =
    16 * d / half p ^ 2 * (rho (half p) (p.eps + c0) x * rho (half p) (p.eps + c0) x) := by field_simp; ring
  rw [e2]
  have : rho (half p) (p.eps + c0) x * rho (half p) (p.eps + c0) x ≤ rho (half p) (p.eps + c0) x := by nlinarith
  gcongr

theorem gk_form (x : ℝ) : (lineG p σ.at x).gk = Complex.I * ((Real.tanh ((x - p.mu) / (2 * p.T)) * 2 * ((lineG p σ.at x).gr).im : ℝ) : ℂ) := rfl

theorem tanh_im (x : ℝ) (z : ℂ) : ‖Complex.I * ((Real.tanh ((x - p.mu) / (2 * p.T)) * 2 * z.im : ℝ) : ℂ)‖ ≤ 2 * ‖z‖ := by
  have ht : |Real.tanh ((x - p.mu) / (2 * p.T))| ≤ 1 := (Real.abs_tanh_lt_one _).le
  rw [norm_mul, Complex.norm_I, one_mul, Complex.norm_real, Real.norm_eq_abs, abs_mul, abs_mul, abs_two]
  have a := Complex.abs_im_le_norm z
  have b := abs_nonneg z.im
  nlinarith [abs_nonneg (Real.tanh ((x - p.mu) / (2 * p.T)))]

theorem line (hp : 0 < p.Gam + p.Lam) (hm : Measurable σ.1) (h : NearR (half p / 2) σ.1 fun _ => c0) :
    Line (8 / half p) (half p) (p.eps + c0) (lineG p σ.at) := by
  have hh := Weak.half_pos hp
  have mr : Measurable fun v : ℝ => (lineG p σ.at v).gr := by
    simp only [gr_den, den]
    exact measurable_const.div ((by fun_prop : Measurable fun v : ℝ => ((v - p.eps : ℝ) : ℂ) + Complex.I * half p).sub hm)
  have mk : Measurable fun v : ℝ => (lineG p σ.at v).gk := by
    simp only [gk_form]
    have mt : Measurable fun v : ℝ => Real.tanh ((v - p.mu) / (2 * p.T)) := by
      have : (fun v : ℝ => Real.tanh ((v - p.mu) / (2 * p.T))) = fun v => Real.sinh ((v - p.mu) / (2 * p.T)) /
          Real.cosh ((v - p.mu) / (2 * p.T)) := by
        funext v; exact Real.tanh_eq_sinh_div_cosh _
      rw [this]
      exact (Real.measurable_sinh.comp (by fun_prop)).div (Real.measurable_cosh.comp (by fun_prop))
    exact measurable_const.mul (Complex.measurable_ofReal.comp ((mt.mul_const 2).mul (Complex.measurable_im.comp mr)))
  refine ⟨fun a b => ?_, fun x a b => ?_⟩
  · cases a <;> cases b <;> simp only [comp]
    · exact measurable_const
    · exact continuous_star.measurable.comp mr
    · exact mr
    · exact mk
  · have r := rho_pos (half p) (p.eps + c0) x
    have g := gr_le hp h x
    have e : 8 / half p * rho (half p) (p.eps + c0) x = 2 * (4 / half p * rho (half p) (p.eps + c0) x) := by ring
    have : 0 ≤ 4 / half p * rho (half p) (p.eps + c0) x := by positivity
    rw [e]
    cases a <;> cases b <;> simp only [comp, norm_zero, norm_star]
    · linarith
    · linarith
    · linarith
    · rw [gk_form]
      exact (tanh_im x _).trans (by linarith)

theorem line_near (hp : 0 < p.Gam + p.Lam) (h : NearR (half p / 2) σ.1 fun _ => c0) (h' : NearR (half p / 2) σ'.1 fun _ => c0)
    {d : ℝ} (hd : NearR d σ.1 σ'.1) : NearG (32 * d / half p ^ 2) (half p) (p.eps + c0) (lineG p σ.at) (lineG p σ'.at) := by
  intro x a b
  have hh := Weak.half_pos hp
  have r := rho_pos (half p) (p.eps + c0) x
  have d0 : 0 ≤ d := (norm_nonneg _).trans (hd x)
  have g := gr_near hp h h' hd x
  have e : 32 * d / half p ^ 2 * rho (half p) (p.eps + c0) x = 2 * (16 * d / half p ^ 2 * rho (half p) (p.eps + c0) x) := by ring
  have : 0 ≤ 16 * d / half p ^ 2 * rho (half p) (p.eps + c0) x := by positivity
  rw [e]
  cases a <;> cases b <;> simp only [comp]
  · rw [sub_zero, norm_zero]; linarith
  · rw [← star_sub, norm_star]; linarith
  · linarith
  · have e2 : (lineG p σ.at x).gk - (lineG p σ'.at x).gk =
        Complex.I * ((Real.tanh ((x - p.mu) / (2 * p.T)) * 2 * ((lineG p σ.at x).gr - (lineG p σ'.at x).gr).im : ℝ) : ℂ) := by
      rw [gk_form, gk_form]
      simp only [Complex.sub_im]
      push_cast
      ring
    rw [e2]
    exact (tanh_im x _).trans (by linarith)

end Verif.Converge
