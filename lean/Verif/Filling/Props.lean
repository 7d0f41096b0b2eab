import Verif.Filling.Lemmas
import Verif.Hartree.Props
import Mathlib.Analysis.Calculus.ParametricIntegral

/-! C141: the occupation computed on the real axis, its shape, and the self-consistency condition. -/
namespace Verif.Filling

open Propagator MeasureTheory Real Filter Topology

/-- **C141** (integrand).  For a constant self-energy the integrand of the occupation is the probability that a state is
occupied times the Lorentzian density of states of the shifted level; other propagator types are refused. -/
theorem c141_integrand (nF F : ℝ → ℝ) (p : Par) (h nu : ℝ) :
    keldyshAt (.prop 'g') nF F p h nu = .ok (nF nu * lor (width p) (nu - (p.eps + h))) ∧
    (∀ typ, typ ≠ 'g' → typ ≠ 's' → keldyshAt (.prop typ) nF F p h nu = .error .assertion) := by
  constructor
  · unfold keldyshAt integrandK
    simp only [if_true, gR_im, lor]
    congr 1
    ring
  · intro typ h1 h2
    unfold keldyshAt integrandK
    simp [h1, h2]

theorem lor_le {D : ℝ} (hD : 0 < D) (x : ℝ) : lor D x ≤ 1 / (π * D) := by
  have hpi := Real.pi_pos
  unfold lor
  rw [div_mul_div_comm, one_mul, div_le_div_iff₀ (by positivity) (by positivity)]
  nlinarith [mul_nonneg hpi.le (sq_nonneg x)]

/-- **C141** (value).  For every distribution between zero and one the computed occupation exists and differs from the
integral over the whole real line by at most `1.2e-9` times the maximum of the density of states. -/
theorem c141_value (nF F : ℝ → ℝ) (hn : Distribution nF) (p : Par) (h : ℝ) (hD : 0 < width p) :
    ∃ f : ℝ → ℝ, (∀ nu, keldyshAt (.prop 'g') nF F p h nu = .ok (f nu)) ∧
      ∃ r, oneshotK f (width p) = .ok r ∧
        |r - occ nF (width p) (p.eps + h)| ≤ 12 / 10 ^ 10 * (1 / (π * width p)) := by
  refine ⟨fun nu => nF nu * lor (width p) (nu - (p.eps + h)), fun nu => (c141_integrand nF F p h nu).1, ?_⟩
  refine integrateAll_accuracy _ (integrable_occ hD hn.meas hn.nonneg hn.le_one _) _ (fun x => ?_) _ _ hD
  rw [abs_of_nonneg (mul_nonneg (hn.nonneg x) (lor_pos hD _).le)]
  calc nF x * lor (width p) (x - (p.eps + h)) ≤ 1 * lor (width p) (x - (p.eps + h)) :=
        mul_le_mul_of_nonneg_right (hn.le_one x) (lor_pos hD _).le
    _ ≤ 1 / (π * width p) := by rw [one_mul]; exact lor_le hD _

/-- **C141** (sum rule).  At zero temperature the occupation is the one of the Friedel sum rule. -/
theorem c141_friedel {D : ℝ} (hD : 0 < D) (e : ℝ) : occ fermi0 D e = 1 / 2 - 1 / π * arctan (e / D) := by
  have h : occ fermi0 D e = ∫ x in Set.Iic 0, lor D (x - e) := by
    unfold occ
    rw [← integral_indicator measurableSet_Iic]
    refine integral_congr_ae ?_
    have h0 : ∀ᵐ x : ℝ, x ≠ 0 := by simp [ae_iff]
    filter_upwards [h0] with x hx
    rcases lt_or_gt_of_ne hx with h | h
    · rw [Set.indicator_of_mem (show x ∈ Set.Iic (0:ℝ) from h.le)]
      simp [fermi0, h.ne, not_lt.2 h.le]
    · rw [Set.indicator_of_notMem (show x ∉ Set.Iic (0:ℝ) from not_le.2 h)]
      simp [fermi0, h]
  rw [h, integral_Iic_lor hD, zero_sub, neg_div, arctan_neg]
  ring

/-- **C141** (shape).  For every distribution the occupation lies between zero and one, does not increase with the
level, changes by at most the shift over `π` times the width, and is one half for a level at the chemical potential
and, more generally, particle-hole symmetric. -/
theorem c141_shape (nF : ℝ → ℝ) (hn : Distribution nF) {D : ℝ} (hD : 0 < D) (e e' : ℝ) :
    0 ≤ occ nF D e ∧ occ nF D e ≤ 1 ∧ (e ≤ e' → occ nF D e' ≤ occ nF D e) ∧
      |occ nF D e - occ nF D e'| ≤ |e - e'| / (π * D) ∧ occ nF D (-e) = 1 - occ nF D e ∧ occ nF D 0 = 1 / 2 := by
  have hs := occ_symm hD hn.meas hn.nonneg hn.le_one hn.symm
  refine ⟨occ_nonneg hD hn.nonneg e, ?_, occ_anti hD hn.meas hn.nonneg hn.le_one hn.anti,
    occ_lipschitz hD hn.meas hn.nonneg hn.le_one e e', hs e, ?_⟩
  · have := occ_nonneg hD hn.nonneg (-e)
    rw [hs e] at this
    linarith
  · have := hs 0
    rw [neg_zero] at this
    linarith

/-- **C141** (strictness).  At every temperature the occupation lies strictly between zero and one and strictly
decreases with the level. -/
theorem c141_strict {D : ℝ} (hD : 0 < D) :
    (∀ T, 0 < T → ∀ e, 0 < occ (fermi T) D e ∧ occ (fermi T) D e < 1 ∧
      ∀ e', e < e' → occ (fermi T) D e' < occ (fermi T) D e) ∧
    (∀ e, 0 < occ fermi0 D e ∧ occ fermi0 D e < 1 ∧ ∀ e', e < e' → occ fermi0 D e' < occ fermi0 D e) := by
  have hpi := Real.pi_pos
  constructor
  · intro T hT e
    have hn := distribution_fermi hT
    have hp : ∀ x, 0 < fermi T x := fun x => by unfold fermi; positivity
    have pos := fun e => occ_pos hD hn.meas hp hn.le_one e
    refine ⟨pos e, ?_, fun e' h => occ_strictAnti hD hn.meas hn.nonneg hn.le_one (fermi_strict hT) h⟩
    have := pos (-e)
    rw [occ_symm hD hn.meas hn.nonneg hn.le_one hn.symm] at this
    linarith
  · intro e
    have b1 := arctan_lt_pi_div_two (e / D)
    have b2 := neg_pi_div_two_lt_arctan (e / D)
    have k1 : 1 / π * arctan (e / D) < 1 / 2 := by
      rw [one_div_mul_eq_div, div_lt_iff₀ hpi]; linarith
    have k2 : -(1 / 2) < 1 / π * arctan (e / D) := by
      rw [one_div_mul_eq_div, lt_div_iff₀ hpi]; linarith
    refine ⟨?_, ?_, fun e' h => ?_⟩
    · rw [c141_friedel hD]; linarith
    · rw [c141_friedel hD]; linarith
    · rw [c141_friedel hD, c141_friedel hD]
      have : arctan (e / D) < arctan (e' / D) := arctan_strictMono (div_lt_div_of_pos_right h hD)
      have : 1 / π * arctan (e / D) < 1 / π * arctan (e' / D) := by gcongr
      linarith

/-- **C141** (self-consistency).  For a repulsive interaction and every distribution there is exactly one occupation that
reproduces itself; for a level at `-U/2` it is one half. -/
theorem c141_selfconsistent (nF : ℝ → ℝ) (hn : Distribution nF) {D : ℝ} (hD : 0 < D) (U eps : ℝ) (hU : 0 ≤ U) :
    (∃! n, occ nF D (eps + U * n) = n) ∧ (∀ n, occ nF D (eps + U * n) = n → 0 ≤ n ∧ n ≤ 1) ∧
      (eps = -(U / 2) → occ nF D (eps + U * (1 / 2)) = 1 / 2) := by
  have hpi := Real.pi_pos
  have shape := c141_shape nF hn hD
  have hlip : ∀ x y : ℝ, |occ nF D (eps + U * x) - occ nF D (eps + U * y)| ≤ U / (π * D) * |x - y| := by
    intro x y
    have h := (shape (eps + U * x) (eps + U * y)).2.2.2.1
    have e1 : eps + U * x - (eps + U * y) = U * (x - y) := by ring
    rw [e1, abs_mul, abs_of_nonneg hU] at h
    calc _ ≤ U * |x - y| / (π * D) := h
      _ = U / (π * D) * |x - y| := by ring
  have hcont : Continuous fun n => occ nF D (eps + U * n) - n := by
    refine Continuous.sub ?_ continuous_id
    refine (LipschitzWith.of_dist_le_mul (K := ⟨U / (π * D), by positivity⟩) fun x y => ?_).continuous
    rw [Real.dist_eq, Real.dist_eq]
    exact hlip x y
  refine ⟨?_, ?_, ?_⟩
  · have hz : (0:ℝ) ∈ Set.Icc (occ nF D (eps + U * 1) - 1) (occ nF D (eps + U * 0) - 0) := by
      have a := (shape (eps + U * 1) 0).2.1
      have b := (shape (eps + U * 0) 0).1
      exact ⟨by linarith, by linarith⟩
    obtain ⟨n, _, hn0⟩ := intermediate_value_Icc' (zero_le_one) hcont.continuousOn hz
    refine ⟨n, sub_eq_zero.1 hn0, fun m hm => ?_⟩
    have hn1 : occ nF D (eps + U * n) = n := sub_eq_zero.1 hn0
    by_contra hne
    rcases lt_or_gt_of_ne hne with h | h
    · have := (shape (eps + U * m) (eps + U * n)).2.2.1 (by nlinarith)
      simp only at hm
      linarith
    · have := (shape (eps + U * n) (eps + U * m)).2.2.1 (by nlinarith)
      simp only at hm
      linarith
  · intro n h
    rw [← h]
    exact ⟨(shape _ 0).1, (shape _ 0).2.1⟩
  · intro h
    have : eps + U * (1 / 2) = 0 := by rw [h]; ring
    rw [this]
    exact (shape 0 0).2.2.2.2.2

/-- **C141** (bisection).  The bisection applied to the occupation of a repulsive level returns the solution to the
threshold, for every distribution, provided the number of admitted iterations exceeds the binary logarithm of
`(1 + U/(π Δ)) / (2 thr)`. -/
theorem c141_bisection (nF : ℝ → ℝ) (hn : Distribution nF) {D : ℝ} (hD : 0 < D) (U eps thr : ℝ) (hU : 0 ≤ U)
    (hthr : 0 < thr) (k budget : ℕ) (hk : U / (π * D) + 1 ≤ 2 * thr * 2 ^ k) (hb : k < budget) (n₀ : ℝ)
    (h₀ : occ nF D (eps + U * n₀) = n₀) :
    ∃ n, Hartree.bracketing budget (Hartree.total fun n => occ nF D (eps + U * n)) thr = .ok n ∧
      0 ≤ n ∧ n ≤ 1 ∧ |n - n₀| ≤ thr := by
  have hpi := Real.pi_pos
  have shape := c141_shape nF hn hD
  obtain ⟨n, h1, h2, h3⟩ := Hartree.c60_terminates_lipschitz (fun n => occ nF D (eps + U * n))
    (fun x _ => ⟨(shape _ 0).1, (shape _ 0).2.1⟩) (U / (π * D)) thr (by positivity) hthr
    (fun x _ y _ => by
      have h := (shape (eps + U * x) (eps + U * y)).2.2.2.1
      have e1 : eps + U * x - (eps + U * y) = U * (x - y) := by ring
      rw [e1, abs_mul, abs_of_nonneg hU] at h
      calc _ ≤ U * |x - y| / (π * D) := h
        _ = U / (π * D) * |x - y| := by ring) k budget hk hb
  exact ⟨n, h1, h2.1, h2.2, Hartree.c60_accuracy _ (fun x y h => (shape _ _).2.2.1 (by nlinarith)) thr n n₀ h3 h₀⟩

/-- **C141** (bisection with the computed occupation).  If the map used in the bisection differs from the exact
occupation by at most `δ`, every result of the bisection is within `thr + δ` of the solution. -/
theorem c141_bisection_error (nF : ℝ → ℝ) (hn : Distribution nF) {D : ℝ} (hD : 0 < D) (U eps thr δ : ℝ) (hU : 0 ≤ U)
    (h0 : 0 ≤ thr) (h1 : thr < 1) (F : ℝ → ℝ) (hF : ∀ n, |F n - occ nF D (eps + U * n)| ≤ δ) (budget : ℕ) (n n₀ : ℝ)
    (h₀ : occ nF D (eps + U * n₀) = n₀) (h : Hartree.bracketing budget (Hartree.total F) thr = .ok n) :
    |n - n₀| ≤ thr + δ := by
  rcases Hartree.c61_bracketing_sound_partial F thr h0 h1 budget with ⟨m, hm, hs⟩ | he
  · rw [hm] at h
    cases h
    refine Hartree.c60_accuracy (fun n => occ nF D (eps + U * n))
      (fun x y h => (c141_shape nF hn hD _ _).2.2.1 (by nlinarith)) _ n n₀ ?_ h₀
    unfold Hartree.Solves at hs ⊢
    have := hF n
    rw [abs_le] at hs this ⊢
    constructor <;> linarith [hs.1, hs.2, this.1, this.2]
  · rw [he] at h; cases h

/-- **C141** (check of the sum rule).  At zero temperature the check stops the program for no occupation that satisfies
the sum rule to one part in a thousand; at finite temperature it never does. -/
theorem c141_check (U eps D n : ℝ) (hD : 0 < D) :
    friedelCheck false U eps D n = .ok () ∧
    (n ≠ 0 → (friedelCheck true U eps D n = .ok () ↔ |n - occ fermi0 D (eps + U * n)| ≤ |n| / 1000)) := by
  constructor
  · simp [friedelCheck]
  · intro hne
    have hpos : 0 < |n| := abs_pos.2 hne
    rw [c141_friedel hD]
    unfold friedelCheck
    simp only [true_and, hne, ne_eq, not_false_eq_true, false_and, if_false, and_false]
    constructor
    · intro h
      by_contra hc
      rw [if_pos (by rw [abs_div, gt_iff_lt, lt_div_iff₀ hpos]; linarith [not_le.1 hc])] at h
      cases h
    · intro h
      rw [if_neg (by rw [abs_div, gt_iff_lt, lt_div_iff₀ hpos]; linarith)]

/-! ### The single-scale propagator -/

theorem abs_kernel {D : ℝ} (hD : 0 < D) (x : ℝ) : |(D ^ 2 - x ^ 2) / (x ^ 2 + D ^ 2) ^ 2| ≤ 1 / (x ^ 2 + D ^ 2) := by
  have hq : 0 < x ^ 2 + D ^ 2 := by positivity
  rw [abs_div, abs_of_pos (a := (x ^ 2 + D ^ 2) ^ 2) (by positivity)]
  have : |D ^ 2 - x ^ 2| ≤ x ^ 2 + D ^ 2 := by
    rw [abs_le]; constructor <;> nlinarith [sq_nonneg D, sq_nonneg x]
  calc |D ^ 2 - x ^ 2| / (x ^ 2 + D ^ 2) ^ 2 ≤ (x ^ 2 + D ^ 2) / (x ^ 2 + D ^ 2) ^ 2 := by gcongr
    _ = 1 / (x ^ 2 + D ^ 2) := by field_simp

theorem abs_half_kernel {D : ℝ} (hD : 0 < D) (x : ℝ) :
    |1 / 2 * ((D ^ 2 - x ^ 2) / (x ^ 2 + D ^ 2) ^ 2)| ≤ 1 / (x ^ 2 + D ^ 2) := by
  rw [abs_mul, abs_of_pos (by norm_num : (0:ℝ) < 1 / 2)]
  have := abs_kernel hD x
  have := abs_nonneg ((D ^ 2 - x ^ 2) / (x ^ 2 + D ^ 2) ^ 2)
  linarith

theorem integrable_sq_kernel {D : ℝ} (hD : 0 < D) {g : ℝ → ℝ} (hg : Measurable g) (hb : ∀ x, |g x| ≤ 1) (e : ℝ) :
    Integrable fun x => g x * (1 / 2 * ((D ^ 2 - (x - e) ^ 2) / ((x - e) ^ 2 + D ^ 2) ^ 2)) := by
  have hpi := Real.pi_pos
  have hc : Continuous fun x : ℝ => 1 / 2 * ((D ^ 2 - (x - e) ^ 2) / ((x - e) ^ 2 + D ^ 2) ^ 2) :=
    continuous_const.mul (Continuous.div (by fun_prop) (by fun_prop) fun x => by positivity)
  refine Integrable.mono ((integrable_lor_sub hD e).const_mul (π / D)) (hg.mul hc.measurable).aestronglyMeasurable
    (ae_of_all _ fun x => ?_)
  rw [norm_mul, Real.norm_eq_abs, Real.norm_eq_abs, Real.norm_of_nonneg (by have := lor_pos hD (x - e); positivity)]
  have hq : 0 < (x - e) ^ 2 + D ^ 2 := by positivity
  have h1 := abs_half_kernel hD (x - e)
  have h2 : π / D * lor D (x - e) = 1 / ((x - e) ^ 2 + D ^ 2) := by unfold lor; field_simp
  rw [h2]
  calc _ ≤ 1 * (1 / ((x - e) ^ 2 + D ^ 2)) := mul_le_mul (hb x) h1 (abs_nonneg _) zero_le_one
    _ = _ := one_mul _

theorem integral_sq_kernel {D : ℝ} (hD : 0 < D) (e : ℝ) :
    ∫ x, 1 / 2 * ((D ^ 2 - (x - e) ^ 2) / ((x - e) ^ 2 + D ^ 2) ^ 2) = 0 := by
  have hi : Integrable fun x => 1 / 2 * ((D ^ 2 - (x - e) ^ 2) / ((x - e) ^ 2 + D ^ 2) ^ 2) := by
    simpa using integrable_sq_kernel hD (g := fun _ => 1) measurable_const (fun _ => by simp) e
  rw [integral_sub_right_eq_self (fun x => 1 / 2 * ((D ^ 2 - x ^ 2) / (x ^ 2 + D ^ 2) ^ 2)) e]
  have hi0 : Integrable fun x => 1 / 2 * ((D ^ 2 - x ^ 2) / (x ^ 2 + D ^ 2) ^ 2) := by
    simpa using integrable_sq_kernel hD (g := fun _ => 1) measurable_const (fun _ => by simp) 0
  have hd : ∀ x : ℝ, HasDerivAt (fun x => 1 / 2 * (x / (x ^ 2 + D ^ 2)))
      (1 / 2 * ((D ^ 2 - x ^ 2) / (x ^ 2 + D ^ 2) ^ 2)) x := by
    intro x
    have d2 : HasDerivAt (fun x : ℝ => x ^ 2 + D ^ 2) (2 * x) x := by
      have := ((hasDerivAt_id' x).pow 2).add_const (D ^ 2)
      simpa using this
    refine (((hasDerivAt_id' x).div d2 (by positivity)).const_mul (1 / 2)).congr_deriv ?_
    congr 2
    ring
  have lim : ∀ {l : Filter ℝ}, Tendsto (fun x : ℝ => |x|⁻¹) l (𝓝 0) →
      Tendsto (fun x : ℝ => 1 / 2 * (x / (x ^ 2 + D ^ 2))) l (𝓝 0) := by
    intro l hl
    refine squeeze_zero_norm (fun x => ?_) hl
    rw [Real.norm_eq_abs, abs_mul, abs_of_pos (by norm_num : (0:ℝ) < 1 / 2), abs_div,
      abs_of_pos (a := x ^ 2 + D ^ 2) (by positivity)]
    rcases eq_or_ne x 0 with rfl | hx
    · simp
    have hx' : 0 < |x| := abs_pos.2 hx
    have : |x| / (x ^ 2 + D ^ 2) ≤ |x|⁻¹ := by
      rw [div_le_iff₀ (by positivity), ← sq_abs]
      field_simp
      nlinarith [sq_nonneg D]
    have h0 : 0 ≤ |x| / (x ^ 2 + D ^ 2) := by positivity
    linarith
  rw [integral_of_hasDerivAt_of_tendsto hd hi0 (lim tendsto_abs_inv.2) (lim tendsto_abs_inv.1), sub_zero]

/-- **C141** (single-scale propagator).  The occupation of the differentiated propagator is the derivative of the
occupation with respect to the flow parameter at fixed self-energy, at every temperature. -/
theorem c141_single_scale (nF F : ℝ → ℝ) (hn : Distribution nF) (p : Par) (h : ℝ) (hD : 0 < width p) :
    ∃ f : ℝ → ℝ, (∀ nu, keldyshAt (.prop 's') nF F p h nu = .ok (f nu)) ∧
      HasDerivAt (fun L => occ nF (width { p with Lam := L }) (p.eps + h)) (∫ nu, f nu) p.Lam := by
  have hpi := Real.pi_pos
  set e := p.eps + h with he
  set D := width p with hDdef
  refine ⟨fun x => nF x * (-1 / π * (1 / 2 * ((D ^ 2 - (x - e) ^ 2) / ((x - e) ^ 2 + D ^ 2) ^ 2))), fun nu => ?_, ?_⟩
  · unfold keldyshAt integrandK
    simp only [show ¬ ('s' = 'g') by decide, if_false, if_true, sR_im p h nu hD]
    congr 1
    ring
  · let G' : ℝ → ℝ → ℝ := fun L x => nF x * (-1 / π * (1 / 2 *
      ((((p.Gam + L) / 2) ^ 2 - (x - e) ^ 2) / ((x - e) ^ 2 + ((p.Gam + L) / 2) ^ 2) ^ 2)))
    have hs : Metric.ball p.Lam D ∈ 𝓝 p.Lam := Metric.ball_mem_nhds _ hD
    have hpos : ∀ L ∈ Metric.ball p.Lam D, D / 2 < (p.Gam + L) / 2 := by
      intro L hL
      rw [Metric.mem_ball, Real.dist_eq, abs_lt] at hL
      have : D = (p.Gam + p.Lam) / 2 := rfl
      linarith [hL.1]
    have hD2 : 0 < D / 2 := by linarith
    have hmain := hasDerivAt_integral_of_dominated_loc_of_deriv_le (μ := volume) (s := Metric.ball p.Lam D)
      (F := fun L x => nF x * lor ((p.Gam + L) / 2) (x - e)) (F' := G') (x₀ := p.Lam)
      (bound := fun x => 1 / (D / 2) * lor (D / 2) (x - e)) hs ?_ ?_ ?_ ?_ ?_ ?_
    · exact hmain.2
    · filter_upwards [hs] with L hL
      exact (integrable_occ (hD2.trans (hpos L hL)) hn.meas hn.nonneg hn.le_one e).aestronglyMeasurable
    · exact integrable_occ hD hn.meas hn.nonneg hn.le_one e
    · have hc : Continuous fun x : ℝ => -1 / π * (1 / 2 * ((D ^ 2 - (x - e) ^ 2) / ((x - e) ^ 2 + D ^ 2) ^ 2)) :=
        continuous_const.mul (continuous_const.mul (Continuous.div (by fun_prop) (by fun_prop) fun x => by positivity))
      exact (hn.meas.mul hc.measurable).aestronglyMeasurable
    · refine ae_of_all _ fun x L hL => ?_
      have hw := hpos L hL
      set W := (p.Gam + L) / 2 with hW
      have hW0 : 0 < W := hD2.trans hw
      simp only [G', ← hW]
      have h4 : (D / 2) ^ 2 ≤ W ^ 2 := by nlinarith
      rw [Real.norm_eq_abs, abs_mul, abs_of_nonneg (hn.nonneg x), abs_mul, abs_div, abs_neg, abs_one, abs_of_pos hpi]
      have h5 := abs_half_kernel hW0 (x - e)
      calc _ ≤ 1 * (1 / π * (1 / ((x - e) ^ 2 + W ^ 2))) := by
            refine mul_le_mul (hn.le_one x) (mul_le_mul_of_nonneg_left h5 (by positivity)) (by positivity) zero_le_one
        _ = 1 / π * (1 / ((x - e) ^ 2 + W ^ 2)) := one_mul _
        _ ≤ 1 / π * (1 / ((x - e) ^ 2 + (D / 2) ^ 2)) := by gcongr
        _ = 1 / (D / 2) * lor (D / 2) (x - e) := by unfold lor; field_simp
    · exact (integrable_lor_sub hD2 e).const_mul _
    · refine ae_of_all _ fun x L hL => ?_
      have hW0 : 0 < (p.Gam + L) / 2 := hD2.trans (hpos L hL)
      have hq : (x - e) ^ 2 + ((p.Gam + L) / 2) ^ 2 ≠ 0 := by positivity
      have dW : HasDerivAt (fun L => (p.Gam + L) / 2) (1 / 2) L :=
        ((hasDerivAt_id' L).const_add p.Gam).div_const 2
      have d2 : HasDerivAt (fun L => (x - e) ^ 2 + ((p.Gam + L) / 2) ^ 2)
          (2 * ((p.Gam + L) / 2) * (1 / 2)) L := by
        simpa using (dW.pow 2).const_add ((x - e) ^ 2)
      refine (((dW.div d2 hq).const_mul (1 / π)).const_mul (nF x)).congr_deriv ?_
      simp only [G']
      field_simp
      ring

/-- **C141** (which component closes the loop).  Closing the loop with the imaginary part of the Keldysh component gives
the same as closing it with twice the lesser component, if the distribution factor is `1 - 2 n`; and the latter is
`4π` times the integral of the differentiated occupation. -/
theorem c141_lesser (nF F : ℝ → ℝ) (hn : Distribution nF) (hF : ∀ x, F x = 1 - 2 * nF x) (p : Par) (h : ℝ)
    (hD : 0 < width p) :
    ∃ fK fL fS : ℝ → ℝ, (∀ nu, keldyshAt (.test "K_imag") nF F p h nu = .ok (fK nu)) ∧
      (∀ nu, keldyshAt (.test "lesser") nF F p h nu = .ok (fL nu)) ∧
      (∀ nu, keldyshAt (.prop 's') nF F p h nu = .ok (fS nu)) ∧
      ∫ nu, fK nu = ∫ nu, fL nu ∧ ∫ nu, fL nu = 4 * π * ∫ nu, fS nu := by
  have hpi := Real.pi_pos
  set e := p.eps + h with he
  set D := width p with hDdef
  let k : ℝ → ℝ := fun x => 1 / 2 * ((D ^ 2 - (x - e) ^ 2) / ((x - e) ^ 2 + D ^ 2) ^ 2)
  refine ⟨fun x => 2 * (1 - 2 * nF x) * k x, fun x => -4 * (nF x * k x), fun x => -1 / π * (nF x * k x),
    fun nu => ?_, fun nu => ?_, fun nu => ?_, ?_, ?_⟩
  · unfold keldyshAt integrandK
    simp only [show ¬ ("K_imag" = "A_real") by decide, show ¬ ("K_imag" = "A_imag") by decide,
      show ¬ ("K_imag" = "R_real") by decide, show ¬ ("K_imag" = "R_imag") by decide,
      show ¬ ("K_imag" = "K_real") by decide, if_false, if_true]
    congr 1
    simp only [sKeq, hF]
    rw [Complex.I_mul_im, Complex.ofReal_re, sR_im p h nu hD]
    ring
  · unfold keldyshAt integrandK
    simp only [show ¬ ("lesser" = "A_real") by decide, show ¬ ("lesser" = "A_imag") by decide,
      show ¬ ("lesser" = "R_real") by decide, show ¬ ("lesser" = "R_imag") by decide,
      show ¬ ("lesser" = "K_real") by decide, show ¬ ("lesser" = "K_imag") by decide, if_false, if_true,
      sR_im p h nu hD]
    congr 1
    ring
  · unfold keldyshAt integrandK
    simp only [show ¬ ('s' = 'g') by decide, if_false, if_true, sR_im p h nu hD]
    congr 1
    ring
  · have i1 : Integrable fun x => 2 * k x := by
      have := integrable_sq_kernel hD (g := fun _ => 1) measurable_const (fun _ => by simp) e
      simp only [one_mul] at this
      exact this.const_mul 2
    have i2 : Integrable fun x => -4 * (nF x * k x) :=
      (integrable_sq_kernel hD hn.meas (fun x => by
        rw [abs_of_nonneg (hn.nonneg x)]; exact hn.le_one x) e).const_mul (-4)
    have e1 : (fun x => 2 * (1 - 2 * nF x) * k x) = fun x => 2 * k x + -4 * (nF x * k x) := by
      funext x; ring
    rw [e1, integral_add i1 i2, integral_const_mul, integral_sq_kernel hD e]
    simp
  · rw [integral_const_mul, integral_const_mul]
    field_simp

/-! Non-vacuity. -/

/-- A level at `-1/2` with `U = 1`, `Γ = 1/5`, `Λ = 1/5` at temperature `1/10`. -/
noncomputable def exPar : Par := ⟨1 / 5, -(1 / 2), 1 / 5, 1 / 10, 0, 0⟩

theorem exPar_width : width exPar = 1 / 5 := by norm_num [width, exPar]

example : ∃ n, Hartree.bracketing 100000 (Hartree.total fun n => occ (fermi (1 / 10)) (1 / 5) (-(1 / 2) + 1 * n))
    (1 / 10 ^ 12) = .ok n ∧ 0 ≤ n ∧ n ≤ 1 ∧ |n - 1 / 2| ≤ 1 / 10 ^ 12 := by
  have hn := distribution_fermi (T := 1 / 10) (by norm_num)
  have hpi : (3:ℝ) < π := Real.pi_gt_three
  refine c141_bisection _ hn (by norm_num) 1 (-(1 / 2)) _ zero_le_one (by norm_num) 50 100000 ?_ (by norm_num) _
    ((c141_selfconsistent _ hn (by norm_num) 1 (-(1 / 2)) zero_le_one).2.2 rfl)
  have : 1 / (π * (1 / 5)) ≤ 2 := by
    rw [div_le_iff₀ (by positivity)]; linarith
  norm_num at this ⊢
  linarith

example : occ fermi0 1 1 = 1 / 4 := by
  rw [c141_friedel one_pos, div_one, arctan_one]
  have := Real.pi_pos
  field_simp
  norm_num

example : friedelCheck true 0 1 1 (1 / 4) = .ok () ∧ friedelCheck true 0 1 1 (1 / 2) = .error .assertion := by
  have h1 : occ fermi0 1 (1 + 0 * (1 / 4)) = 1 / 4 ∧ occ fermi0 1 (1 + 0 * (1 / 2)) = 1 / 4 := by
    have := Real.pi_pos
    constructor <;>
    · rw [c141_friedel one_pos, zero_mul, add_zero, div_one, arctan_one]
      field_simp
      norm_num
  constructor
  · rw [(c141_check 0 1 1 (1 / 4) one_pos).2 (by norm_num), h1.1]; norm_num
  · have := (c141_check 0 1 1 (1 / 2) one_pos).2 (by norm_num)
    rw [h1.2] at this
    have hne : friedelCheck true 0 1 1 (1 / 2) ≠ .ok () := fun h => by
      have := this.1 h
      norm_num at this
    unfold friedelCheck at hne ⊢
    dsimp only at hne ⊢
    split_ifs at hne ⊢ <;> simp_all

end Verif.Filling
