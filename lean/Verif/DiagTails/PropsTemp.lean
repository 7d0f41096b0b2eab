import Verif.DiagTails.Props
import Verif.Filling.Lorentz

/-! C129: the tails at finite temperature. -/
namespace Verif.DiagTails
open Complex MeasureTheory Filter Topology Verif.Tails

/-- The Keldysh component at finite temperature (`ZERO_TEMP 0`). -/
noncomputable def keldyshT (type : Char) (p : Propagator.Par) (H ν : ℝ) : ℂ :=
  if type = 'g' then Propagator.gKeq .hyb (Propagator.fermiFac ν p.mu p.T) { p with v := ν } ⟨H, 0, 0⟩
  else Propagator.sKeq .hyb (Propagator.fermiFac ν p.mu p.T) { p with v := ν } ⟨H, 0, 0⟩

theorem tanh_near_one (x : ℝ) : 0 ≤ 1 - Real.tanh x ∧ 1 - Real.tanh x ≤ 2 * Real.exp (-(2 * x)) := by
  have c := Real.cosh_pos x
  have e : 1 - Real.tanh x = Real.exp (-x) / Real.cosh x := by
    rw [Real.tanh_eq_sinh_div_cosh, ← Real.cosh_sub_sinh]
    field_simp
  rw [e]
  refine ⟨by positivity, ?_⟩
  rw [div_le_iff₀ c, show -(2 * x) = -x + -x by ring, Real.exp_add, Real.cosh_eq]
  have h : Real.exp (-x) * Real.exp x = 1 := by rw [← Real.exp_add]; simp
  have p := Real.exp_pos (-x)
  have : 2 * (Real.exp (-x) * Real.exp (-x)) * ((Real.exp x + Real.exp (-x)) / 2)
    = Real.exp (-x) * (Real.exp (-x) * Real.exp x) + Real.exp (-x) * Real.exp (-x) * Real.exp (-x) := by ring
  rw [this, h]
  have := mul_pos (mul_pos p p) p
  linarith

theorem factor_near {ν mu T d : ℝ} (hT : 0 < T) (hd : d ≤ |ν - mu|) (h0 : ν ≠ mu) :
    |Propagator.fermiFac ν mu T - Propagator.fermiFac0 ν mu| ≤ 2 * Real.exp (-(d / T)) := by
  have mono : ∀ x : ℝ, d ≤ x → 2 * Real.exp (-(2 * (x / (2 * T)))) ≤ 2 * Real.exp (-(d / T)) := fun x hx => by
    have : d / T ≤ 2 * (x / (2 * T)) := by
      rw [show 2 * (x / (2 * T)) = x / T by field_simp]
      gcongr
    gcongr
  rcases lt_or_gt_of_ne h0 with h | h
  · rw [sgn_below h]
    rw [abs_of_neg (by linarith)] at hd
    obtain ⟨a, b⟩ := tanh_near_one (-((ν - mu) / (2 * T)))
    rw [Real.tanh_neg] at a b
    unfold Propagator.fermiFac
    rw [abs_of_nonneg (by linarith)]
    have := mono _ hd
    rw [neg_div] at this
    linarith
  · rw [sgn_above h]
    rw [abs_of_pos (by linarith)] at hd
    obtain ⟨a, b⟩ := tanh_near_one ((ν - mu) / (2 * T))
    unfold Propagator.fermiFac
    rw [abs_of_nonpos (by linarith)]
    have := mono _ hd
    linarith

/-- Difference of retarded and advanced component. -/
noncomputable def gap (type : Char) (p : Propagator.Par) (H ν : ℝ) : ℂ := retarded type p H ν - (starRingEnd ℂ) (retarded type p H ν)

theorem keldyshT_eq (type : Char) (p : Propagator.Par) (H ν : ℝ) :
    keldyshT type p H ν = (Propagator.fermiFac ν p.mu p.T : ℝ) * gap type p H ν := by
  unfold keldyshT gap retarded
  split <;> rw [Complex.sub_conj] <;> simp only [Propagator.gKeq, Propagator.sKeq] <;> push_cast <;> ring

theorem keldysh_temp (type : Char) (p : Propagator.Par) (H ν : ℝ) :
    keldysh type p H ν = (Propagator.fermiFac0 ν p.mu : ℝ) * gap type p H ν := by
  unfold keldysh gap retarded
  split <;> rw [Complex.sub_conj] <;> simp only [Propagator.gKeq, Propagator.sKeq] <;> push_cast <;> ring

theorem gR_sq (p : Propagator.Par) (H ν : ℝ) (hyb : 0 < p.Gam + p.Lam) : ‖retarded 'g' p H ν‖ ^ 2 =
    Real.pi / ((p.Gam + p.Lam) / 2) * Filling.lor ((p.Gam + p.Lam) / 2) (ν - (p.eps + H)) := by
  have e : ((ν : ℂ) + (-(p.eps + H : ℝ) + I * ((p.Gam + p.Lam) / 2 : ℝ))) = ⟨ν - (p.eps + H), (p.Gam + p.Lam) / 2⟩ := by
    apply Complex.ext <;> simp
    ring
  rw [gR_eq, e, one_div, norm_inv, inv_pow, ← Complex.normSq_eq_norm_sq, normSq_mk, Filling.lor]
  have := Real.pi_pos
  field_simp

theorem gap_le (p : Propagator.Par) (H ν : ℝ) (hyb : 0 < p.Gam + p.Lam) (type : Char) (ht : type = 'g' ∨ type = 's') :
    ‖gap type p H ν‖ ≤ (if type = 'g' then 2 * Real.pi else 2 * Real.pi / (p.Gam + p.Lam)) *
      Filling.lor ((p.Gam + p.Lam) / 2) (ν - (p.eps + H)) := by
  have hpi := Real.pi_pos
  rcases ht with rfl | rfl
  · rw [if_pos rfl, gap, Complex.sub_conj, gR_eq]
    have e : ((ν : ℂ) + (-(p.eps + H : ℝ) + I * ((p.Gam + p.Lam) / 2 : ℝ))) = ⟨ν - (p.eps + H), (p.Gam + p.Lam) / 2⟩ := by
      apply Complex.ext <;> simp
      ring
    rw [e, one_div, inv_im, normSq_mk, norm_mul, norm_I, mul_one, norm_real, Real.norm_eq_abs, Filling.lor]
    rw [abs_of_nonpos (by
      have : 0 ≤ (p.Gam + p.Lam) / 2 / ((ν - (p.eps + H)) * (ν - (p.eps + H)) + (p.Gam + p.Lam) / 2 * ((p.Gam + p.Lam) / 2)) :=
        div_nonneg (by positivity) (add_nonneg (mul_self_nonneg _) (by positivity))
      rw [neg_div]; linarith)]
    refine le_of_eq ?_
    field_simp
  · rw [if_neg (by decide)]
    have h : ‖gap 's' p H ν‖ ≤ ‖retarded 'g' p H ν‖ ^ 2 := by
      rw [gap, sA_eq, sR_eq]
      refine (norm_sub_le _ _).trans (le_of_eq ?_)
      simp only [norm_mul, norm_div, norm_neg, norm_I, RCLike.norm_conj]
      norm_num
      ring
    refine h.trans (le_of_eq ?_)
    rw [gR_sq p H ν hyb]
    field_simp

theorem gap_meas (type : Char) (ht : type = 'g' ∨ type = 's') (p : Propagator.Par) (H : ℝ) : Measurable (gap type p H) := by
  have g : Measurable (retarded 'g' p H) := by
    have : retarded 'g' p H = fun ν : ℝ => 1 / ((ν : ℂ) + (-(p.eps + H : ℝ) + I * ((p.Gam + p.Lam) / 2 : ℝ))) := funext (gR_eq p H)
    rw [this]
    fun_prop
  have r : Measurable (retarded type p H) := by
    rcases ht with rfl | rfl
    · exact g
    · have : retarded 's' p H = fun ν => -I / 2 * (retarded 'g' p H ν * retarded 'g' p H ν) := funext (sR_eq p H)
      rw [this]
      exact (g.mul g).const_mul _
  exact r.sub (Complex.continuous_conj.measurable.comp r)

theorem fac_meas (mu T : ℝ) : Measurable fun ν => Propagator.fermiFac ν mu T := by
  have : Continuous Real.tanh := by
    have : Real.tanh = fun x => Real.sinh x / Real.cosh x := funext Real.tanh_eq_sinh_div_cosh
    rw [this]
    exact Real.continuous_sinh.div Real.continuous_cosh fun x => (Real.cosh_pos x).ne'
  unfold Propagator.fermiFac
  exact this.measurable.comp (by fun_prop)

theorem fac0_meas (mu : ℝ) : Measurable fun ν => Propagator.fermiFac0 ν mu := by
  unfold Propagator.fermiFac0 Propagator.sgn
  refine Measurable.sub (Measurable.ite ?_ measurable_const measurable_const) (Measurable.ite ?_ measurable_const measurable_const)
  · exact measurableSet_le measurable_const (by fun_prop)
  · exact measurableSet_le (by fun_prop) measurable_const

theorem isTail_integrable {f : ℝ → ℂ} (hf : Integrable f) (vmin vmax : ℝ) :
    IsTail f vmin vmax ((∫ v in Set.Iic vmin, f v) + ∫ v in Set.Ioi vmax, f v) :=
  (intervalIntegral_tendsto_integral_Iic vmin hf.integrableOn tendsto_neg_atTop_atBot).add
    (intervalIntegral_tendsto_integral_Ioi vmax hf.integrableOn tendsto_id)

/-- C129: at finite temperature the Keldysh component has a tail, and the value the code uses, which is that of zero
temperature, differs from it by an amount exponentially small in the distance of the box edges from the chemical potential. -/
theorem c129_temperature (p : Propagator.Par) (H vmin vmax : ℝ) (hyb : 0 < p.Gam + p.Lam) (h0 : vmin ≤ 0)
    (h1 : vmin < p.eps + H) (h2 : p.eps + H < vmax) (hT : 0 < p.T) {d : ℝ} (hd : 0 < d) (h3 : d ≤ p.mu - vmin) (h4 : d ≤ vmax - p.mu)
    (type : Char) (ht : type = 'g' ∨ type = 's') :
    ∃ x : ℂ, IsTail (keldyshT type p H) vmin vmax x ∧
      ‖x - selfKeldysh 2 vmin vmax (p.eps + H : ℝ) ((p.Gam + p.Lam) / 2) type‖ ≤
        (if type = 'g' then 4 * Real.pi else 4 * Real.pi / (p.Gam + p.Lam)) * Real.exp (-(d / p.T)) := by
  set c : ℝ := if type = 'g' then 2 * Real.pi else 2 * Real.pi / (p.Gam + p.Lam) with hc
  have hpi := Real.pi_pos
  have c0 : 0 ≤ c := by rw [hc]; split <;> positivity
  set b : ℝ → ℝ := fun ν => c * Filling.lor ((p.Gam + p.Lam) / 2) (ν - (p.eps + H)) with hb
  have hyb2 : 0 < (p.Gam + p.Lam) / 2 := by positivity
  have ib : Integrable b := (Filling.integrable_lor_sub hyb2 _).const_mul c
  have tb : ∫ ν, b ν = c := by rw [hb, integral_const_mul, Filling.integral_lor_sub hyb2, mul_one]
  have b0 : ∀ ν, 0 ≤ b ν := fun ν => mul_nonneg c0 (Filling.lor_pos hyb2 _).le
  have gb : ∀ ν, ‖gap type p H ν‖ ≤ b ν := fun ν => gap_le p H ν hyb type ht
  have gm := gap_meas type ht p H
  have ig : Integrable (gap type p H) := ib.mono' gm.aestronglyMeasurable (Eventually.of_forall gb)
  have iT : Integrable (keldyshT type p H) := by
    have : keldyshT type p H = fun ν => (Propagator.fermiFac ν p.mu p.T : ℝ) * gap type p H ν := funext (keldyshT_eq type p H)
    rw [this]
    refine ib.mono' ((Complex.measurable_ofReal.comp (fac_meas p.mu p.T)).mul gm).aestronglyMeasurable (Eventually.of_forall fun ν => ?_)
    rw [norm_mul, norm_real, Real.norm_eq_abs]
    have := (Real.abs_tanh_lt_one ((ν - p.mu) / (2 * p.T))).le
    calc _ ≤ 1 * ‖gap type p H ν‖ := mul_le_mul_of_nonneg_right this (norm_nonneg _)
      _ ≤ b ν := by rw [one_mul]; exact gb ν
  have i0 : Integrable (keldysh type p H) := by
    have : keldysh type p H = fun ν => (Propagator.fermiFac0 ν p.mu : ℝ) * gap type p H ν := funext (keldysh_temp type p H)
    rw [this]
    refine ib.mono' ((Complex.measurable_ofReal.comp (fac0_meas p.mu)).mul gm).aestronglyMeasurable (Eventually.of_forall fun ν => ?_)
    rw [norm_mul, norm_real, Real.norm_eq_abs]
    have : |Propagator.fermiFac0 ν p.mu| ≤ 1 := by
      unfold Propagator.fermiFac0 Propagator.sgn
      split <;> split <;> norm_num
    calc _ ≤ 1 * ‖gap type p H ν‖ := mul_le_mul_of_nonneg_right this (norm_nonneg _)
      _ ≤ b ν := by rw [one_mul]; exact gb ν
  have z := c129_keldysh p H vmin vmax hyb h0 h1 h2 (by linarith) (by linarith) type ht 2 (by decide)
  have z' : IsTail (keldysh type p H) vmin vmax (selfKeldysh 2 vmin vmax (p.eps + H : ℝ) ((p.Gam + p.Lam) / 2) type) := z
  have u := tendsto_nhds_unique z' (isTail_integrable i0 vmin vmax)
  refine ⟨_, isTail_integrable iT vmin vmax, ?_⟩
  rw [u]
  set q : ℝ := 2 * Real.exp (-(d / p.T)) with hq
  have near : ∀ ν, d ≤ |ν - p.mu| → ‖keldyshT type p H ν - keldysh type p H ν‖ ≤ q * b ν := fun ν hν => by
    rw [keldyshT_eq, keldysh_temp, ← sub_mul, norm_mul, ← Complex.ofReal_sub, norm_real, Real.norm_eq_abs]
    have ne : ν ≠ p.mu := fun h => by rw [h, sub_self, abs_zero] at hν; linarith
    exact mul_le_mul (factor_near hT hν ne) (gb ν) (norm_nonneg _) (by positivity)
  have bound : ∀ S : Set ℝ, MeasurableSet S → (∀ ν ∈ S, d ≤ |ν - p.mu|) →
      ‖(∫ ν in S, keldyshT type p H ν) - ∫ ν in S, keldysh type p H ν‖ ≤ q * ∫ ν in S, b ν := fun S hS hd => by
    rw [← integral_sub iT.integrableOn i0.integrableOn, ← integral_const_mul]
    refine norm_integral_le_of_norm_le (ib.integrableOn.const_mul q) ?_
    exact (ae_restrict_iff' hS).2 (Eventually.of_forall fun ν hν => near ν (hd ν hν))
  have l := bound (Set.Iic vmin) measurableSet_Iic fun ν hν => by
    have : ν ≤ vmin := hν
    rw [abs_of_nonpos (by linarith)]; linarith
  have r := bound (Set.Ioi vmax) measurableSet_Ioi fun ν hν => by
    have : vmax < ν := hν
    rw [abs_of_nonneg (by linarith)]; linarith
  have total : (∫ ν in Set.Iic vmin, b ν) + ∫ ν in Set.Ioi vmax, b ν ≤ c := by
    rw [← tb, ← setIntegral_union (Set.disjoint_left.2 fun x h h' => by
      have a : x ≤ vmin := h
      have b : vmax < x := h'
      linarith) measurableSet_Ioi ib.integrableOn ib.integrableOn]
    exact setIntegral_le_integral ib (Eventually.of_forall b0)
  have e : ∀ A B C D : ℂ, A + B - (C + D) = (A - C) + (B - D) := fun A B C D => by ring
  rw [e]
  refine (norm_add_le _ _).trans ((add_le_add l r).trans ?_)
  rw [← mul_add]
  refine (mul_le_mul_of_nonneg_left total (by positivity)).trans (le_of_eq ?_)
  rw [hq, hc]
  split <;> ring

-- a box from -30 to 30 at temperature 1/100: the error is at most `4 π exp (-3000)`
example : ∃ x : ℂ, IsTail (keldyshT 'g' ⟨1, -1 / 2, 1, 1 / 100, 0, 0⟩ (1 / 2)) (-30) 30 x ∧
    ‖x - selfKeldysh 2 (-30) 30 ((-1 / 2 + 1 / 2 : ℝ) : ℂ) ((1 + 1) / 2) 'g'‖ ≤ 4 * Real.pi * Real.exp (-3000) := by
  obtain ⟨x, a, b⟩ := c129_temperature ⟨1, -1 / 2, 1, 1 / 100, 0, 0⟩ (1 / 2) (-30) 30 (by norm_num) (by norm_num) (by norm_num) (by norm_num)
    (by norm_num) (d := 30) (by norm_num) (by norm_num) (by norm_num) 'g' (.inl rfl)
  refine ⟨x, a, b.trans (le_of_eq ?_)⟩
  rw [if_pos rfl]
  norm_num

end Verif.DiagTails
