import Verif.Filling.Props
import Verif.MatSum.Props
import Verif.Propagator.PropsDeriv
import Mathlib.MeasureTheory.Measure.Lebesgue.Integral
import Mathlib.Topology.Algebra.InfiniteSum.Real

/-! C142: the occupation computed on the imaginary axis. -/
namespace Verif.Filling

open Propagator MeasureTheory Real Filter Topology

/-- The real part of the propagator on the imaginary axis with the sign removed: `e / ((|x| s + D)² + e²)`. -/
noncomputable def kern (s D e x : ℝ) : ℝ := e / ((|x| * s + D) ^ 2 + e ^ 2)

variable {s D e : ℝ}

theorem gM_level (s : ℝ) (p : Par) (h nu : ℝ) :
    gM2 false s (atFreq p nu) h =
      1 / (((-(p.eps + h) : ℝ) : ℂ) + Complex.I * ((nu * s + width p * sign nu : ℝ) : ℂ)) := by
  simp only [gM2, g0Minv, atFreq, width, Bool.false_eq_true, if_false]
  congr 1
  push_cast
  ring

theorem sign_mul (hs : 0 < s) (x D : ℝ) (hx : x ≠ 0) : (x * s + D * sign x) ^ 2 = (|x| * s + D) ^ 2 := by
  rcases lt_or_gt_of_ne hx with h | h
  · rw [abs_of_neg h]
    have : sign x = -1 := by simp [sign, h, not_lt.2 h.le]
    rw [this]; ring
  · rw [abs_of_pos h]
    have : sign x = 1 := by simp [sign, h, not_lt.2 h.le]
    rw [this]; ring

/-- **C142** (integrand).  At every frequency different from zero the integrand is the real part of the propagator: the
subtracted asymptotic part is imaginary.  Other propagator types are refused. -/
theorem c142_integrand (hs : 0 < s) (p : Par) (h nu : ℝ) :
    (nu ≠ 0 → matsubaraAt 'g' s p h nu = .ok (-kern s (width p) (p.eps + h) nu)) ∧
    (∀ typ, typ ≠ 'g' → typ ≠ 's' → matsubaraAt typ s p h nu = .error .assertion) := by
  constructor
  · intro hnu
    unfold matsubaraAt integrandM
    simp only [if_true]
    congr 1
    rw [Complex.sub_re, gM_level, one_div, Complex.inv_re, normSq_level, sign_mul hs nu _ hnu]
    have e1 : (1 / (Complex.I * (nu : ℂ) * (s : ℂ))).re = 0 := by
      have : (1 : ℂ) / (Complex.I * (nu : ℂ) * (s : ℂ)) = Complex.I * ((-(1 / (nu * s)) : ℝ) : ℂ) := by
        have h1 : (nu : ℂ) ≠ 0 := by exact_mod_cast hnu
        have h2 : (s : ℂ) ≠ 0 := by exact_mod_cast hs.ne'
        have h3 := Complex.I_ne_zero
        push_cast
        field_simp
        rw [Complex.I_sq, neg_neg]
      rw [this, Complex.I_mul_re, Complex.ofReal_im, neg_zero]
    rw [e1, sub_zero, Complex.add_re, Complex.ofReal_re, Complex.I_mul_re, Complex.ofReal_im]
    unfold kern
    rw [neg_sq, add_comm (((|nu| * s + width p)) ^ 2)]
    ring
  · intro typ h1 h2
    unfold matsubaraAt integrandM
    simp [h1, h2]

/-- **C142** (differentiated integrand).  At every frequency the integrand for the differentiated propagator is the
derivative of the integrand with respect to the flow parameter. -/
theorem c142_derivative (hs : 0 < s) (p : Par) (h nu : ℝ) (hnu : nu ≠ 0) (hD : 0 < width p) :
    ∃ g : ℝ → ℝ, ∃ d : ℝ, (∀ L, matsubaraAt 'g' s { p with Lam := L } h nu = .ok (g L)) ∧
      matsubaraAt 's' s p h nu = .ok d ∧ HasDerivAt g d p.Lam := by
  refine ⟨fun L => (gM2 false s (atFreq { p with Lam := L } nu) h - 1 / (Complex.I * nu * s)).re,
    (sM2 false s (atFreq p nu) h).re, fun L => ?_, ?_, ?_⟩
  · simp [matsubaraAt, integrandM]
  · simp [matsubaraAt, integrandM, show ¬ ('s' = 'g') by decide]
  · have h1 := (c66_matsubara false s (atFreq p nu) (fun _ => (h : ℂ)) 0 p.Lam (hasDerivAt_const _ _)).1 (by
      simp only [Bool.false_eq_true, if_false]
      have e1 : g0Minv false s (atFreq p nu) + Complex.I * p.Lam * 0.5 * (sign (atFreq p nu).v : ℝ) - (h : ℂ) =
          ((-(p.eps + h) : ℝ) : ℂ) + Complex.I * ((nu * s + width p * sign nu : ℝ) : ℂ) := by
        simp only [g0Minv, atFreq, width, Bool.false_eq_true, if_false]
        push_cast
        ring
      rw [e1, Ne, ← Complex.normSq_eq_zero, normSq_level, sign_mul hs nu _ hnu]
      have : 0 < |nu| * s + width p := by positivity
      positivity)
    simp only [mul_zero, zero_mul, add_zero] at h1
    have h2 := (h1.sub_const (1 / (Complex.I * nu * s)))
    exact Complex.reCLM.hasFDerivAt.comp_hasDerivAt p.Lam h2

/-! ### Integrals of the kernel -/

theorem kern_even (s D e x : ℝ) : kern s D e (-x) = kern s D e x := by simp [kern]

theorem kern_abs (s D e x : ℝ) : kern s D e |x| = kern s D e x := by simp [kern]

theorem kern_odd (s D e x : ℝ) : kern s D (-e) x = -kern s D e x := by unfold kern; rw [neg_sq]; ring

theorem kern_bound (hs : 0 < s) (hD : 0 < D) (e x : ℝ) : |kern s D e x| ≤ 1 / (2 * D) := by
  unfold kern
  have hq : D ≤ |x| * s + D := by have := abs_nonneg x; nlinarith [mul_nonneg this hs.le]
  rw [abs_div, abs_of_pos (a := (|x| * s + D) ^ 2 + e ^ 2) (by positivity),
    div_le_div_iff₀ (by positivity) (by positivity)]
  nlinarith [sq_nonneg (|e| - D), sq_abs e, mul_self_le_mul_self hD.le hq]

theorem continuous_kern (hs : 0 < s) (hD : 0 < D) (e : ℝ) : Continuous (kern s D e) := by
  unfold kern
  refine continuous_const.div (by fun_prop) fun x => ?_
  have : 0 < |x| * s + D := by positivity
  positivity

theorem integrable_kern (hs : 0 < s) (hD : 0 < D) (e : ℝ) : Integrable (kern s D e) := by
  have hpi := Real.pi_pos
  have hDs : 0 < D / s := by positivity
  refine Integrable.mono ((integrable_lor hDs).const_mul (|e| * π / (s * D)))
    (continuous_kern hs hD e).aestronglyMeasurable (ae_of_all _ fun x => ?_)
  rw [Real.norm_eq_abs, Real.norm_of_nonneg (by have := lor_pos hDs x; positivity)]
  have h1 : |e| * π / (s * D) * lor (D / s) x = |e| / ((|x| * s) ^ 2 + D ^ 2) := by
    unfold lor
    rw [mul_pow, sq_abs]
    have : x ^ 2 * s ^ 2 + D ^ 2 ≠ 0 := by positivity
    have : x ^ 2 + (D / s) ^ 2 ≠ 0 := by positivity
    field_simp
  rw [h1]
  unfold kern
  rw [abs_div, abs_of_pos (a := (|x| * s + D) ^ 2 + e ^ 2) (by positivity)]
  refine div_le_div_of_nonneg_left (abs_nonneg e) (by positivity) ?_
  have := mul_nonneg (mul_nonneg (abs_nonneg x) hs.le) hD.le
  nlinarith [sq_nonneg e]

theorem hasDerivAt_tail (hs : 0 < s) (hD : 0 < D) (e : ℝ) {x : ℝ} (hx : 0 ≤ x) :
    HasDerivAt (fun x => -(1 / s * arctan (e / (x * s + D)))) (e / ((x * s + D) ^ 2 + e ^ 2)) x := by
  have hq : 0 < x * s + D := by positivity
  have d1 : HasDerivAt (fun x : ℝ => x * s + D) s x := by
    simpa using ((hasDerivAt_id' x).mul_const s).add_const D
  have d2 := ((((hasDerivAt_const x e).div d1 hq.ne').arctan).const_mul (1 / s)).neg
  refine d2.congr_deriv ?_
  simp only [Pi.div_apply]
  have h1 : (x * s + D) ^ 2 + e ^ 2 ≠ 0 := by positivity
  have h2 : 1 + (e / (x * s + D)) ^ 2 ≠ 0 := by positivity
  field_simp
  ring

theorem tendsto_tail (hs : 0 < s) (D e : ℝ) :
    Tendsto (fun x => -(1 / s * arctan (e / (x * s + D)))) atTop (𝓝 0) := by
  have h1 : Tendsto (fun x : ℝ => x * s + D) atTop atTop :=
    tendsto_atTop_add_const_right _ _ (tendsto_id.atTop_mul_const hs)
  have h2 : Tendsto (fun x : ℝ => e / (x * s + D)) atTop (𝓝 0) := h1.const_div_atTop e
  have h3 := ((Real.continuous_arctan.tendsto 0).comp h2)
  rw [arctan_zero] at h3
  simpa using (h3.const_mul (1 / s)).neg

/-- The part of the integral above a non-negative frequency. -/
theorem above_kern (hs : 0 < s) (hD : 0 < D) (e : ℝ) {c : ℝ} (hc : 0 ≤ c) :
    ∫ x in Set.Ioi c, kern s D e x = 1 / s * arctan (e / (c * s + D)) := by
  have hcongr : ∫ x in Set.Ioi c, kern s D e x = ∫ x in Set.Ioi c, e / ((x * s + D) ^ 2 + e ^ 2) := by
    refine setIntegral_congr_fun measurableSet_Ioi fun x hx => ?_
    have : 0 ≤ x := hc.trans (le_of_lt hx)
    simp [kern, abs_of_nonneg this]
  have hint : IntegrableOn (fun x => e / ((x * s + D) ^ 2 + e ^ 2)) (Set.Ioi c) := by
    refine (integrable_kern hs hD e).integrableOn.congr_fun (fun x hx => ?_) measurableSet_Ioi
    have : 0 ≤ x := hc.trans (le_of_lt hx)
    simp [kern, abs_of_nonneg this]
  rw [hcongr, integral_Ioi_of_hasDerivAt_of_tendsto' (fun x hx => hasDerivAt_tail hs hD e (hc.trans hx)) hint
    (tendsto_tail hs D e)]
  ring

theorem below_kern (hs : 0 < s) (hD : 0 < D) (e : ℝ) {c : ℝ} (hc : 0 ≤ c) :
    ∫ x in Set.Iic (-c), kern s D e x = 1 / s * arctan (e / (c * s + D)) := by
  rw [← above_kern hs hD e hc, ← integral_comp_neg_Ioi]
  simp [kern_even]

theorem integral_kern (hs : 0 < s) (hD : 0 < D) (e : ℝ) :
    ∫ x, kern s D e x = 2 * (1 / s * arctan (e / D)) := by
  have h1 := above_kern hs hD e le_rfl
  have h2 := below_kern hs hD e le_rfl
  rw [neg_zero] at h2
  rw [← intervalIntegral.integral_Iic_add_Ioi (integrable_kern hs hD e).integrableOn
    (integrable_kern hs hD e).integrableOn (b := 0), h1, h2, zero_mul, zero_add]
  ring

/-! ### Zero temperature -/

theorem integrateAll_congr {f g : ℝ → ℝ} (h : f =ᵐ[volume] g) (D w : ℝ) : integrateAll f D w = integrateAll g D w := by
  have h1 : cell f = cell g := by
    funext a b
    unfold cell
    exact intervalIntegral.integral_congr_ae (h.mono fun x hx _ => hx)
  have h2 : below f = below g := by
    funext a
    exact integral_congr_ae (ae_restrict_of_ae h)
  have h3 : above f = above g := by
    funext a
    exact integral_congr_ae (ae_restrict_of_ae h)
  unfold integrateAll
  rw [h1, h2, h3]

/-- **C142** (zero temperature).  On the imaginary axis the computed occupation exists and differs from the occupation on
the real axis by at most `1.2e-9 / (4π Δ)`. -/
theorem c142_zero_temperature (p : Par) (h : ℝ) (hD : 0 < width p) :
    ∃ f : ℝ → ℝ, (∀ nu, matsubaraAt 'g' 1 p h nu = .ok (f nu)) ∧
      ∃ r, oneshotM0 'g' f (width p) = .ok r ∧
        |r - occ fermi0 (width p) (p.eps + h)| ≤ 12 / 10 ^ 10 * (1 / (2 * width p)) / (2 * π) := by
  have hpi := Real.pi_pos
  set f : ℝ → ℝ := fun nu => (gM2 false 1 (atFreq p nu) h - 1 / (Complex.I * nu * (1 : ℝ))).re with hf
  have hok : ∀ nu, matsubaraAt 'g' 1 p h nu = .ok (f nu) := fun nu => by
    unfold matsubaraAt integrandM
    rw [if_pos rfl]
  refine ⟨f, hok, ?_⟩
  have hae : f =ᵐ[volume] fun nu => -kern 1 (width p) (p.eps + h) nu := by
    have h0 : ∀ᵐ x : ℝ, x ≠ 0 := by simp [ae_iff]
    filter_upwards [h0] with x hx
    have h1 := (c142_integrand one_pos p h x).1 hx
    rw [hok x] at h1
    injection h1
  obtain ⟨r, hr, hb⟩ := integrateAll_accuracy (fun nu => -kern 1 (width p) (p.eps + h) nu)
    (integrable_kern one_pos hD _).neg (1 / (2 * width p))
    (fun x => by rw [abs_neg]; exact kern_bound one_pos hD _ x) (width p) 0 hD
  rw [← integrateAll_congr hae] at hr
  refine ⟨r / (2 * π) + 0.5, ?_, ?_⟩
  · unfold oneshotM0
    rw [hr]
    rfl
  · rw [integral_neg, integral_kern one_pos hD, c141_friedel hD] at *
    have e1 : r / (2 * π) + 0.5 - (1 / 2 - 1 / π * arctan ((p.eps + h) / width p)) =
        (r - -(2 * (1 / 1 * arctan ((p.eps + h) / width p)))) / (2 * π) := by
      field_simp
      ring
    rw [e1, abs_div, abs_of_pos (a := 2 * π) (by positivity)]
    gcongr

/-! ### Finite temperature -/

/-- **C142** (finite temperature).  The sum over all fermionic frequencies, with the one half for the asymptotic part, is
the occupation on the real axis, for every temperature, level, width and self-energy. -/
theorem c142_finite_temperature (p : Par) (h T : ℝ) (hT : 0 < T) (hD : 0 < width p) :
    ∃ f : ℤ → ℝ, (∀ N : ℤ, matsubaraAt 'g' (π * T) p h ((2 * N + 1 : ℤ) : ℝ) = .ok (f N)) ∧
      HasSum (fun N => T * f N) (occ (fermi T) (width p) (p.eps + h) - offset 'g') := by
  have hpi := Real.pi_pos
  have hs : 0 < π * T := by positivity
  set e := p.eps + h with he
  refine ⟨fun N => -kern (π * T) (width p) e ((2 * N + 1 : ℤ) : ℝ), fun N => ?_, ?_⟩
  · refine (c142_integrand hs p h _).1 ?_
    have : (2 * N + 1 : ℤ) ≠ 0 := by omega
    exact_mod_cast this
  · have hocc : occ (fermi T) (width p) e = occ (nTanh T) (width p) e := by
      rw [show fermi T = nTanh T from funext (fermi_eq_nTanh hT)]
    have hp := (occ_poles hT hD e).mul_left (-(1 / 2))
    have hterm : ∀ n : ℕ, T * -kern (π * T) (width p) e ((2 * (n : ℤ) + 1 : ℤ) : ℝ) =
        -(1 / 2) * (2 * T * (e / ((pole T n + width p) ^ 2 + e ^ 2))) := by
      intro n
      have habs : |((2 * (n : ℤ) + 1 : ℤ) : ℝ)| = 2 * (n : ℝ) + 1 := by
        push_cast
        exact abs_of_pos (by positivity)
      unfold kern pole
      rw [habs, mul_assoc (2 * (n:ℝ) + 1)]
      ring
    have h1 : HasSum (fun n : ℕ => T * -kern (π * T) (width p) e ((2 * (n : ℤ) + 1 : ℤ) : ℝ))
        (-(1 / 2) * (1 / 2 - occ (nTanh T) (width p) e)) := hasSum_of_eq hp hterm
    have h2 : HasSum (fun n : ℕ => T * -kern (π * T) (width p) e ((2 * (-((n : ℤ) + 1)) + 1 : ℤ) : ℝ))
        (-(1 / 2) * (1 / 2 - occ (nTanh T) (width p) e)) := by
      refine hasSum_of_eq h1 fun n => ?_
      rw [← kern_even]
      congr 3
      push_cast
      ring
    have h3 := HasSum.of_nat_of_neg_add_one (f := fun N : ℤ => T * -kern (π * T) (width p) e ((2 * N + 1 : ℤ) : ℝ)) h1 h2
    have e1 : occ (fermi T) (width p) e - offset 'g' = -(1 / 2) * (1 / 2 - occ (nTanh T) (width p) e) +
        -(1 / 2) * (1 / 2 - occ (nTanh T) (width p) e) := by
      rw [hocc]
      unfold offset
      norm_num
      ring
    rw [e1]
    exact h3

/-! ### The weight of the tails -/

/-- The integral of the kernel above a frequency. -/
noncomputable def area (s D e c : ℝ) : ℝ := 1 / s * arctan (e / (c * s + D))

theorem area_nonneg (hs : 0 < s) (hD : 0 < D) (he : 0 ≤ e) {c : ℝ} (hc : 0 ≤ c) : 0 ≤ area s D e c := by
  unfold area
  have : 0 ≤ arctan (e / (c * s + D)) := Real.arctan_nonneg.2 (by positivity)
  positivity

/-- On two steps of the frequency the area changes by at least twice the smaller and at most twice the larger value. -/
theorem area_step (hs : 0 < s) (hD : 0 < D) (he : 0 ≤ e) {c : ℝ} (hc : 0 ≤ c) :
    2 * kern s D e (c + 2) ≤ area s D e c - area s D e (c + 2) ∧
      area s D e c - area s D e (c + 2) ≤ 2 * kern s D e c := by
  obtain ⟨x, hx, hd⟩ := exists_hasDerivAt_eq_slope (fun x => -(1 / s * arctan (e / (x * s + D))))
    (fun x => e / ((x * s + D) ^ 2 + e ^ 2)) (show c < c + 2 by linarith)
    (fun y hy => (hasDerivAt_tail hs hD e (hc.trans hy.1)).continuousAt.continuousWithinAt)
    (fun y hy => hasDerivAt_tail hs hD e (hc.trans hy.1.le))
  have hv : area s D e c - area s D e (c + 2) = 2 * (e / ((x * s + D) ^ 2 + e ^ 2)) := by
    rw [hd]
    unfold area
    ring
  have hmono : ∀ a b : ℝ, 0 ≤ a → a ≤ b → e / ((b * s + D) ^ 2 + e ^ 2) ≤ e / ((a * s + D) ^ 2 + e ^ 2) := by
    intro a b ha hab
    refine div_le_div_of_nonneg_left he (by positivity) ?_
    have : a * s + D ≤ b * s + D := by nlinarith
    have h0 : 0 ≤ a * s + D := by positivity
    nlinarith
  rw [hv]
  unfold kern
  rw [abs_of_nonneg hc, abs_of_nonneg (by linarith : 0 ≤ c + 2)]
  have h1 := hmono c x hc hx.1.le
  have h2 := hmono x (c + 2) (hc.trans hx.1.le) hx.2.le
  constructor <;> linarith

theorem area_sum (hs : 0 < s) (hD : 0 < D) (he : 0 ≤ e) {c : ℝ} (hc : 0 ≤ c) (n : ℕ) :
    2 * ∑ i ∈ Finset.range n, kern s D e (c + 2 + 2 * i) ≤ area s D e c - area s D e (c + 2 * n) ∧
      area s D e c - area s D e (c + 2 * n) ≤ 2 * ∑ i ∈ Finset.range n, kern s D e (c + 2 * i) := by
  induction n with
  | zero => simp
  | succ n ih =>
    have hst := area_step hs hD he (c := c + 2 * n) (by positivity)
    have e1 : c + 2 * ((n + 1 : ℕ) : ℝ) = c + 2 * n + 2 := by push_cast; ring
    have e2 : c + 2 + 2 * (n : ℝ) = c + 2 * n + 2 := by ring
    rw [Finset.sum_range_succ, Finset.sum_range_succ, e1, e2]
    constructor <;> linarith [ih.1, ih.2, hst.1, hst.2]

theorem tendsto_area (hs : 0 < s) (D e c : ℝ) : Tendsto (fun n : ℕ => area s D e (c + 2 * n)) atTop (𝓝 0) := by
  have h1 : Tendsto (fun n : ℕ => c + 2 * (n : ℝ)) atTop atTop :=
    tendsto_atTop_add_const_left _ _ (tendsto_natCast_atTop_atTop.const_mul_atTop (by norm_num : (0:ℝ) < 2))
  have h2 := ((tendsto_tail hs D e).neg).comp h1
  rw [neg_zero] at h2
  refine h2.congr fun n => ?_
  simp [area, Function.comp]

/-- The rest of the frequency sum above a frequency. -/
theorem rest_bounds (hs : 0 < s) (hD : 0 < D) (he : 0 ≤ e) {c : ℝ} (hc : 0 ≤ c)
    (hS : Summable fun i : ℕ => kern s D e (c + 2 + 2 * i)) :
    area s D e (c + 2) / 2 ≤ ∑' i : ℕ, kern s D e (c + 2 + 2 * i) ∧
      ∑' i : ℕ, kern s D e (c + 2 + 2 * i) ≤ area s D e c / 2 := by
  have ht := hS.hasSum.tendsto_sum_nat
  constructor
  · refine le_of_tendsto_of_tendsto'
      (((tendsto_const_nhds (x := area s D e (c + 2))).sub (tendsto_area hs D e (c + 2))).div_const 2) ht ?_ |>.trans' ?_
    · intro n
      have := (area_sum hs hD he (c := c + 2) (by linarith) n).2
      linarith
    · rw [sub_zero]
  · refine le_of_tendsto' ht fun n => ?_
    have h1 := (area_sum hs hD he hc n).1
    have h2 := area_nonneg hs hD he (c := c + 2 * n) (by positivity)
    linarith

/-- The kernel at the fermionic frequencies. -/
theorem kern_poles (hT : 0 < T) (hD : 0 < D) (e : ℝ) :
    HasSum (fun n : ℕ => kern (π * T) D e (2 * n + 1)) ((1 / 2 - occ (fermi T) D e) / (2 * T)) := by
  have hp := (occ_poles hT hD e).mul_left (1 / (2 * T))
  rw [show fermi T = nTanh T from funext (fermi_eq_nTanh hT)]
  rw [show (1 / 2 - occ (nTanh T) D e) / (2 * T) = 1 / (2 * T) * (1 / 2 - occ (nTanh T) D e) by ring]
  refine hasSum_of_eq hp fun n => ?_
  unfold kern pole
  rw [abs_of_pos (by positivity : (0:ℝ) < 2 * n + 1), mul_assoc (2 * (n:ℝ) + 1)]
  field_simp

theorem sum_Icc_kern (s D e : ℝ) (N : ℕ) :
    ∑ n ∈ Finset.Icc (-(N : ℤ)) N, kern s D e ((2 * n + 1 : ℤ) : ℝ) =
      ∑ i ∈ Finset.range (N + 1), kern s D e (2 * i + 1) + ∑ i ∈ Finset.range N, kern s D e (2 * i + 1) := by
  induction N with
  | zero => simp
  | succ N ih =>
    have hset : Finset.Icc (-((N + 1 : ℕ) : ℤ)) ((N + 1 : ℕ) : ℤ) =
        insert (-((N + 1 : ℕ) : ℤ)) (insert ((N + 1 : ℕ) : ℤ) (Finset.Icc (-(N : ℤ)) N)) := by
      ext x
      simp only [Finset.mem_Icc, Finset.mem_insert]
      push_cast
      omega
    rw [hset, Finset.sum_insert, Finset.sum_insert, ih, Finset.sum_range_succ _ (N + 1), Finset.sum_range_succ _ N]
    · rw [← kern_even s D e ((2 * (-((N + 1 : ℕ) : ℤ)) + 1 : ℤ) : ℝ)]
      have e1 : -(((2 * (-((N + 1 : ℕ) : ℤ)) + 1 : ℤ) : ℝ)) = 2 * (N : ℝ) + 1 := by push_cast; ring
      have e2 : ((2 * ((N + 1 : ℕ) : ℤ) + 1 : ℤ) : ℝ) = 2 * ((N + 1 : ℕ) : ℝ) + 1 := by push_cast; ring
      rw [e1, e2]
      ring
    · simp only [Finset.mem_Icc]; push_cast; omega
    · simp only [Finset.mem_Icc, Finset.mem_insert]; push_cast; omega

/-- Exact occupation minus partial sum minus tails with weight `w`, written with the rests of the sum. -/
noncomputable def gap (T D e w : ℝ) (N : ℕ) : ℝ :=
  T * (w * (area (π * T) D e (2 * N - 1) + area (π * T) D e (2 * N + 1))) -
    T * (∑' i : ℕ, kern (π * T) D e (2 * N - 1 + 2 + 2 * i) + ∑' i : ℕ, kern (π * T) D e (2 * N + 1 + 2 + 2 * i))

theorem gap_odd (T D e w : ℝ) (N : ℕ) : gap T D (-e) w N = -gap T D e w N := by
  unfold gap area
  simp only [kern_odd, neg_div, arctan_neg, tsum_neg]
  ring

theorem summable_rest (hT : 0 < T) (hD : 0 < D) (e : ℝ) (k : ℕ) (c : ℝ) (hc : c = 2 * k + 1) :
    (Summable fun i : ℕ => kern (π * T) D e (c + 2 * i)) ∧
      (1 / 2 - occ (fermi T) D e) / (2 * T) =
        ∑ i ∈ Finset.range k, kern (π * T) D e (2 * i + 1) + ∑' i : ℕ, kern (π * T) D e (c + 2 * i) := by
  have hp := kern_poles hT hD e
  have hfun : (fun i : ℕ => kern (π * T) D e (c + 2 * i)) = fun i : ℕ => kern (π * T) D e (2 * ((i + k : ℕ) : ℝ) + 1) := by
    funext i
    rw [hc]
    congr 1
    push_cast
    ring
  rw [hfun]
  refine ⟨(summable_nat_add_iff (f := fun n : ℕ => kern (π * T) D e (2 * (n : ℝ) + 1)) k).2 hp.summable, ?_⟩
  rw [hp.summable.sum_add_tsum_nat_add k, hp.tsum_eq]

theorem gap_bounds (hT : 0 < T) (hD : 0 < D) (he : 0 ≤ e) {N : ℕ} (hN : 1 ≤ N) (w : ℝ) :
    T * ((w - 1 / 2) * (area (π * T) D e (2 * N - 1) + area (π * T) D e (2 * N + 1))) ≤ gap T D e w N ∧
      gap T D e w N ≤ T * ((w - 1 / 2) * (area (π * T) D e (2 * N - 1) + area (π * T) D e (2 * N + 1))) +
        T / 2 * (area (π * T) D e (2 * N - 1) - area (π * T) D e (2 * N + 3)) := by
  have hs : 0 < π * T := mul_pos Real.pi_pos hT
  have hN' : (1 : ℝ) ≤ N := by exact_mod_cast hN
  have b1 := rest_bounds hs hD he (c := 2 * N - 1) (by linarith)
    (summable_rest hT hD e N _ (by ring)).1
  have b2 := rest_bounds hs hD he (c := 2 * N + 1) (by linarith)
    (summable_rest hT hD e (N + 1) _ (by push_cast; ring)).1
  rw [show (2 * (N:ℝ) - 1 + 2) = 2 * N + 1 by ring] at b1
  rw [show (2 * (N:ℝ) + 1 + 2) = 2 * N + 3 by ring] at b2
  unfold gap
  rw [show (2 * (N:ℝ) - 1 + 2) = 2 * N + 1 by ring, show (2 * (N:ℝ) + 1 + 2) = 2 * N + 3 by ring]
  constructor <;> nlinarith [b1.1, b1.2, b2.1, b2.2]

theorem occ_eq_gap (hT : 0 < T) (hD : 0 < D) (e w : ℝ) (N : ℕ) :
    occ (fermi T) D e = 1 / 2 - T * ∑ n ∈ Finset.Icc (-(N : ℤ)) N, kern (π * T) D e ((2 * n + 1 : ℤ) : ℝ) -
      T * (w * (area (π * T) D e (2 * N - 1) + area (π * T) D e (2 * N + 1))) + gap T D e w N := by
  have h1 := (summable_rest hT hD e N (2 * N - 1 + 2) (by ring)).2
  have h2 := (summable_rest hT hD e (N + 1) (2 * N + 1 + 2) (by push_cast; ring)).2
  rw [sum_Icc_kern]
  unfold gap
  rw [div_eq_iff (by positivity)] at h1 h2
  linarith

/-- The value of the code at finite temperature. -/
theorem oneshotM_value (p : Par) (h T : ℝ) (hT : 0 < T) (hD : 0 < width p) {N : ℕ} (hN : 1 ≤ N) :
    ∃ f : ℝ → ℝ, (∀ nu, matsubaraAt 'g' (π * T) p h nu = .ok (f nu)) ∧
      oneshotM 'g' f T N = .ok (occ (fermi T) (width p) (p.eps + h) - gap T (width p) (p.eps + h) 1 N) ∧
      below f (-(2 * N - 1)) + above f (2 * N + 1) =
        -(area (π * T) (width p) (p.eps + h) (2 * N - 1) + area (π * T) (width p) (p.eps + h) (2 * N + 1)) := by
  have hpi := Real.pi_pos
  have hs : 0 < π * T := by positivity
  have hN' : (1 : ℝ) ≤ N := by exact_mod_cast hN
  set e := p.eps + h with he
  set f : ℝ → ℝ := fun nu => (gM2 false (π * T) (atFreq p nu) h - 1 / (Complex.I * nu * ((π * T : ℝ) : ℂ))).re with hf
  have hok : ∀ nu, matsubaraAt 'g' (π * T) p h nu = .ok (f nu) := fun nu => by
    unfold matsubaraAt integrandM
    rw [if_pos rfl]
  have hk : ∀ x : ℝ, x ≠ 0 → f x = -kern (π * T) (width p) e x := by
    intro x hx
    have h1 := (c142_integrand hs p h x).1 hx
    rw [hok x] at h1
    injection h1
  refine ⟨f, hok, ?_⟩
  have hsum := (MatSum.c96_sum (fun n : ℤ => f n) (-(N : ℤ)) N).1 (by omega)
  have hb : below f (2 * (-(N : ℝ)) + 1) = -area (π * T) (width p) e (2 * N - 1) := by
    unfold below area
    rw [← below_kern hs hD e (by linarith : (0:ℝ) ≤ 2 * N - 1), ← integral_neg,
      show 2 * (-(N : ℝ)) + 1 = -(2 * N - 1) by ring]
    refine setIntegral_congr_fun measurableSet_Iic fun x hx => hk x ?_
    have : x ≤ -(2 * N - 1) := hx
    have h2 : x < 0 := by linarith
    exact h2.ne
  have ha : above f (2 * (N : ℝ) + 1) = -area (π * T) (width p) e (2 * N + 1) := by
    unfold above area
    rw [← above_kern hs hD e (by linarith : (0:ℝ) ≤ 2 * N + 1), ← integral_neg]
    refine setIntegral_congr_fun measurableSet_Ioi fun x hx => hk x ?_
    have h1 : 2 * (N:ℝ) + 1 < x := hx
    have h2 : 0 < x := by linarith
    exact h2.ne'
  refine ⟨?_, ?_⟩
  swap
  · rw [← neg_eq_iff_eq_neg.2 hb, ← neg_eq_iff_eq_neg.2 ha, show -(2 * (N : ℝ) - 1) = 2 * -(N : ℝ) + 1 by ring]
    ring
  unfold oneshotM
  rw [hsum, hb, ha]
  show Except.ok _ = _
  congr 1
  rw [occ_eq_gap hT hD e 1 N]
  have h1 : ∑ n ∈ Finset.Icc (-(N : ℤ)) N, f ((2 * n + 1 : ℤ) : ℝ) =
      -∑ n ∈ Finset.Icc (-(N : ℤ)) N, kern (π * T) (width p) e ((2 * n + 1 : ℤ) : ℝ) := by
    rw [← Finset.sum_neg_distrib]
    refine Finset.sum_congr rfl fun n _ => hk _ ?_
    have : (2 * n + 1 : ℤ) ≠ 0 := by omega
    exact_mod_cast this
  rw [h1]
  unfold offset
  norm_num
  ring

theorem abs_gap (T D e w : ℝ) (N : ℕ) : |gap T D e w N| = |gap T D |e| w N| := by
  rcases abs_choice e with h | h <;> rw [h]
  rw [gap_odd, abs_neg]

/-- **C142** (accuracy at finite temperature).  The computed value differs from the occupation by at most `1/π` times the
two tails, so that it converges, with the inverse number of frequencies, and it is exact for a level at zero energy.
With the tails halved, the deviation is the much smaller difference of two tails. -/
theorem c142_tail_partial (p : Par) (h T : ℝ) (hT : 0 < T) (hD : 0 < width p) (N : ℕ) (hN : 1 ≤ N) :
    ∃ f : ℝ → ℝ, (∀ nu, matsubaraAt 'g' (π * T) p h nu = .ok (f nu)) ∧
      ∃ r, oneshotM 'g' f T N = .ok r ∧
        |r - occ (fermi T) (width p) (p.eps + h)| ≤
          1 / π * (arctan (|p.eps + h| / ((2 * N - 1) * (π * T) + width p)) +
            arctan (|p.eps + h| / ((2 * N + 1) * (π * T) + width p))) ∧
        |r - (below f (-(2 * N - 1)) + above f (2 * N + 1)) * T / 2 - occ (fermi T) (width p) (p.eps + h)| ≤
          1 / (2 * π) * (arctan (|p.eps + h| / ((2 * N - 1) * (π * T) + width p)) -
            arctan (|p.eps + h| / ((2 * N + 3) * (π * T) + width p))) := by
  obtain ⟨f, hf, hr, ht⟩ := oneshotM_value p h T hT hD hN
  have hpi := Real.pi_pos
  have hN' : (1 : ℝ) ≤ N := by exact_mod_cast hN
  set e := p.eps + h with he
  have hs : 0 < π * T := by positivity
  have hTA : ∀ x c : ℝ, T * area (π * T) (width p) x c = 1 / π * arctan (x / (c * (π * T) + width p)) := by
    intro x c
    unfold area
    field_simp
  refine ⟨f, hf, _, hr, ?_, ?_⟩
  · rw [sub_sub_cancel_left, abs_neg, abs_gap]
    obtain ⟨b1, b2⟩ := gap_bounds hT hD (abs_nonneg e) hN 1
    have a1 := area_nonneg hs hD (abs_nonneg e) (c := 2 * N - 1) (by linarith)
    have a2 := area_nonneg hs hD (abs_nonneg e) (c := 2 * N + 1) (by linarith)
    have a3 := area_nonneg hs hD (abs_nonneg e) (c := 2 * N + 3) (by linarith)
    rw [abs_of_nonneg (le_trans (by positivity) b1), mul_add, ← hTA, ← hTA]
    nlinarith
  · have e1 : occ (fermi T) (width p) e - gap T (width p) e 1 N -
        (below f (-(2 * N - 1)) + above f (2 * N + 1)) * T / 2 - occ (fermi T) (width p) e =
        -gap T (width p) e (1 / 2) N := by
      rw [ht]
      unfold gap
      ring
    rw [e1, abs_neg, abs_gap]
    obtain ⟨b1, b2⟩ := gap_bounds hT hD (abs_nonneg e) hN (1 / 2)
    rw [sub_self, zero_mul, mul_zero] at b1 b2
    rw [abs_of_nonneg b1]
    refine b2.trans (le_of_eq ?_)
    have k1 := hTA |e| (2 * N - 1)
    have k3 := hTA |e| (2 * N + 3)
    have k0 : 1 / (2 * π) = 1 / π / 2 := by field_simp
    rw [k0]
    linarith

/-- **C142** (refuted at finite temperature).  The computed value is off by at least half of the two tails, for every
number of frequencies and every level that is not at zero energy; the error is at least one quarter if the level lies
above the largest frequency of the sum. -/
theorem c142_tail_refuted (p : Par) (h T : ℝ) (hT : 0 < T) (hD : 0 < width p) (N : ℕ) (hN : 1 ≤ N) (f : ℝ → ℝ)
    (hf : ∀ nu, matsubaraAt 'g' (π * T) p h nu = .ok (f nu)) (r : ℝ) (hr : oneshotM 'g' f T N = .ok r) :
    1 / π * arctan (|p.eps + h| / ((2 * N + 1) * (π * T) + width p)) ≤ |r - occ (fermi T) (width p) (p.eps + h)| ∧
      (p.eps + h ≠ 0 → r ≠ occ (fermi T) (width p) (p.eps + h)) ∧
      ((2 * N + 1) * (π * T) + width p ≤ |p.eps + h| → 1 / 4 ≤ |r - occ (fermi T) (width p) (p.eps + h)|) := by
  obtain ⟨g, hg, hr', -⟩ := oneshotM_value p h T hT hD hN
  have hfg : f = g := by
    funext nu
    have := (hf nu).symm.trans (hg nu)
    injection this
  subst hfg
  have hpi := Real.pi_pos
  have hN' : (1 : ℝ) ≤ N := by exact_mod_cast hN
  have hs : 0 < π * T := by positivity
  rw [hr'] at hr
  injection hr with hr
  subst hr
  set e := p.eps + h with he
  have hTA : ∀ x c : ℝ, T * area (π * T) (width p) x c = 1 / π * arctan (x / (c * (π * T) + width p)) := by
    intro x c
    unfold area
    field_simp
  have hcn : 0 < (2 * N - 1) * (π * T) + width p := by
    have : (0:ℝ) < 2 * N - 1 := by linarith
    positivity
  have hcp : 0 < (2 * N + 1) * (π * T) + width p := by positivity
  have hmain : 1 / π * arctan (|e| / ((2 * N + 1) * (π * T) + width p)) ≤
      |occ (fermi T) (width p) e - gap T (width p) e 1 N - occ (fermi T) (width p) e| := by
    rw [sub_sub_cancel_left, abs_neg, abs_gap]
    refine le_trans ?_ ((gap_bounds hT hD (abs_nonneg e) hN 1).1.trans (le_abs_self _))
    have hmono : 1 / π * arctan (|e| / ((2 * N + 1) * (π * T) + width p)) ≤
        1 / π * arctan (|e| / ((2 * N - 1) * (π * T) + width p)) := by
      refine mul_le_mul_of_nonneg_left (Real.arctan_strictMono.monotone ?_) (by positivity)
      refine div_le_div_of_nonneg_left (abs_nonneg e) hcn ?_
      nlinarith
    rw [← hTA, ← hTA] at hmono
    rw [← hTA]
    linarith
  refine ⟨hmain, fun hne heq => ?_, fun hbig => ?_⟩
  · rw [heq, sub_self, abs_zero] at hmain
    have : 0 < arctan (|e| / ((2 * N + 1) * (π * T) + width p)) := by
      have := abs_pos.2 hne
      exact Real.arctan_pos.2 (by positivity)
    have : 0 < 1 / π * arctan (|e| / ((2 * N + 1) * (π * T) + width p)) := by positivity
    linarith
  · refine le_trans ?_ hmain
    have h1 : π / 4 ≤ arctan (|e| / ((2 * N + 1) * (π * T) + width p)) := by
      rw [← Real.arctan_one]
      exact Real.arctan_strictMono.monotone ((one_le_div hcp).2 hbig)
    calc (1:ℝ) / 4 = 1 / π * (π / 4) := by field_simp
      _ ≤ _ := by gcongr

/-- **C142** (Hartree value).  The Hartree value of a run at zero temperature is the interaction times the occupation, to
the same accuracy, and at finite temperature it inherits the error of the tails. -/
theorem c142_hartree (p : Par) (h U : ℝ) (hD : 0 < width p) :
    (∃ f : ℝ → ℝ, (∀ nu, matsubaraAt 'g' 1 p h nu = .ok (f nu)) ∧
      ∃ r, hartreeOneshot U (oneshotM0 'g' f (width p)) = .ok r ∧
        |r - U * occ fermi0 (width p) (p.eps + h)| ≤ |U| * (12 / 10 ^ 10 * (1 / (2 * width p)) / (2 * π))) ∧
    (∀ (T : ℝ), 0 < T → ∀ N : ℕ, 1 ≤ N → U ≠ 0 → p.eps + h ≠ 0 → ∃ f : ℝ → ℝ,
      (∀ nu, matsubaraAt 'g' (π * T) p h nu = .ok (f nu)) ∧
      ∃ r, hartreeOneshot U (oneshotM 'g' f T N) = .ok r ∧ r ≠ U * occ (fermi T) (width p) (p.eps + h)) := by
  constructor
  · obtain ⟨f, hf, r, hr, hb⟩ := c142_zero_temperature p h hD
    refine ⟨f, hf, U * r, by unfold hartreeOneshot; rw [hr]; rfl, ?_⟩
    rw [← mul_sub, abs_mul]
    gcongr
  · intro T hT N hN hU he
    obtain ⟨f, hf, r, hr, -⟩ := c142_tail_partial p h T hT hD N hN
    refine ⟨f, hf, U * r, by unfold hartreeOneshot; rw [hr]; rfl, fun heq => ?_⟩
    exact (c142_tail_refuted p h T hT hD N hN f hf r hr).2.1 he (mul_left_cancel₀ hU heq)

/-! ### Concrete cases -/

example : ∃ f : ℝ → ℝ, (∀ nu, matsubaraAt 'g' 1 exPar 1 nu = .ok (f nu)) ∧ ∃ r, oneshotM0 'g' f (width exPar) = .ok r ∧
    |r - occ fermi0 (width exPar) (exPar.eps + 1)| ≤ 12 / 10 ^ 10 * (1 / (2 * width exPar)) / (2 * π) :=
  c142_zero_temperature exPar 1 (by norm_num [width, exPar])

example : ∃ f : ℤ → ℝ, (∀ N : ℤ, matsubaraAt 'g' (π * 2) exPar 1 ((2 * N + 1 : ℤ) : ℝ) = .ok (f N)) ∧
    HasSum (fun N => 2 * f N) (occ (fermi 2) (width exPar) (exPar.eps + 1) - offset 'g') :=
  c142_finite_temperature exPar 1 2 (by norm_num) (by norm_num [width, exPar])

/-- A case in which the level is not at zero energy: the code's value exists and differs from the occupation. -/
example : ∃ f : ℝ → ℝ, ∃ r, oneshotM 'g' f 2 640 = .ok r ∧ r ≠ occ (fermi 2) (width exPar) (exPar.eps + 1) := by
  have hD : 0 < width exPar := by norm_num [width, exPar]
  obtain ⟨f, hf, r, hr, -⟩ := c142_tail_partial exPar 1 2 (by norm_num) hD 640 (by norm_num)
  exact ⟨f, r, hr, (c142_tail_refuted exPar 1 2 (by norm_num) hD 640 (by norm_num) f hf r hr).2.1
    (by norm_num [exPar])⟩

end Verif.Filling
