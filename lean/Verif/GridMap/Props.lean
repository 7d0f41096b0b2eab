import Verif.GridMap.Lemmas
import Mathlib.Analysis.SpecialFunctions.Pow.Deriv
import Mathlib.Analysis.SpecialFunctions.Sqrt
import Mathlib.Analysis.SpecialFunctions.ExpDeriv
import Mathlib.Analysis.Calculus.Deriv.Slope
import Mathlib.Analysis.Calculus.Deriv.Inv
import Mathlib.Analysis.Calculus.Deriv.Add

/-! C20, C21, C74: changes of variables. -/
namespace Verif.GridMap

/-- C21, version 1. -/
theorem c21_v1 {W : ℝ} (hW : 0 < W) (c : ℝ) : ChangeOfVariable (v1 W c) (v1Inv W c) :=
  changeOfVariable_of (fun w => (v1_spec hW c w).1) (fun w => (v1_spec hW c w).2) (v1Inv_mono hW c)

/-- C21, version 2 (the one used in the real-frequency formalism). -/
theorem c21_v2 {W : ℝ} (hW : 0 < W) (c : ℝ) : ChangeOfVariable (v2 W c) (v2Inv W c) :=
  changeOfVariable_of (fun w => (v2_spec hW c w).1) (fun w => (v2_spec hW c w).2) (v2Inv_mono hW c)

/-- C21, version 4. -/
theorem c21_v4 {W : ℝ} (hW : 0 < W) (c : ℝ) : ChangeOfVariable (v4 W c) (v4Inv W c) :=
  changeOfVariable_of (fun w => (v4_spec hW c w).1) (fun w => (v4_spec hW c w).2) (v4Inv_mono hW c)

/-- C21, linear grid: inverse and strictly increasing on the whole axis. -/
theorem c21_lin {W : ℝ} (hW : 0 < W) :
    (∀ w, linInv W (lin W w) = w) ∧ (∀ t, lin W (linInv W t) = t) ∧ StrictMono (lin W) ∧
      StrictMono (linInv W) := by
  refine ⟨fun w => ?_, fun t => ?_, fun a b h => ?_, fun a b h => ?_⟩
  · simp only [lin, linInv]; field_simp
  · simp only [lin, linInv]; field_simp
  · exact div_lt_div_of_pos_right h hW
  · exact mul_lt_mul_of_pos_right h hW

/-- C21, version 3: everything except inside a window of half-width `1e-12` about the centre, which is mapped
to one point. -/
theorem c21_v3_partial {W : ℝ} (hW : 0 < W) (c : ℝ) :
    (∀ w, -1 < v3 W c w ∧ v3 W c w < 1) ∧
    (∀ w, 1 / 10^12 ≤ |w - c| → v3Inv W c (v3 W c w) = w) ∧
    (∀ w, |v3Inv W c (v3 W c w) - w| < 1 / 10^12) ∧ Monotone (v3 W c) ∧
    (∀ s t, -1 < s → s < t → t < 1 → v3Inv W c s < v3Inv W c t) := by
  have hpos : (0:ℝ) < 1 / 10^12 := by norm_num
  refine ⟨fun w => (v3_spec hW c w).1, fun w => (v3_spec hW c w).2.1, fun w => ?_, ?_, v3Inv_mono hW c⟩
  · rcases lt_or_ge |w - c| (1/10^12) with h | h
    · rw [(v3_spec hW c w).2.2 h, abs_sub_comm]; exact h
    · rw [(v3_spec hW c w).2.1 h]; simpa using hpos
  · intro a b hab
    by_contra hc
    push Not at hc
    have hinv := v3Inv_mono hW c _ _ (v3_spec hW c b).1.1 hc (v3_spec hW c a).1.2
    rcases lt_or_ge |a - c| (1/10^12) with ha | ha <;> rcases lt_or_ge |b - c| (1/10^12) with hb | hb
    · rw [(v3_spec hW c a).2.2 ha, (v3_spec hW c b).2.2 hb] at hinv; exact lt_irrefl _ hinv
    · rw [(v3_spec hW c a).2.2 ha, (v3_spec hW c b).2.1 hb] at hinv
      have h1 := abs_lt.mp ha
      rw [abs_of_neg (by linarith)] at hb
      linarith
    · rw [(v3_spec hW c a).2.1 ha, (v3_spec hW c b).2.2 hb] at hinv
      have h1 := abs_lt.mp hb
      rw [abs_of_pos (by linarith)] at ha
      linarith
    · rw [(v3_spec hW c a).2.1 ha, (v3_spec hW c b).2.1 hb] at hinv; linarith

/-- C21 is false for version 3: two different frequencies close to the centre are mapped to the same point. -/
theorem c21_v3_refuted {W : ℝ} (c : ℝ) : v3 W c (c + 1 / 10^13) = v3 W c c ∧ c + 1/10^13 ≠ c := by
  constructor
  · simp only [v3, add_sub_cancel_left, sub_self]
    norm_num
  · norm_num

/-- C21: all maps are odd about the centre. -/
theorem c21_odd (W c x : ℝ) :
    v1 W c (c - x) = - v1 W c (c + x) ∧ v2 W c (c - x) = - v2 W c (c + x) ∧
    v3 W c (c - x) = - v3 W c (c + x) ∧ v4 W c (c - x) = - v4 W c (c + x) := by
  refine ⟨?_, ?_, ?_, ?_⟩
  · simp only [v1, add_sub_cancel_left, show c - x - c = -x by ring, neg_mul_neg, neg_div]
  · simp only [v2, add_sub_cancel_left, show c - x - c = -x by ring, neg_mul_neg, sgn_odd]; ring
  · simp only [v3, add_sub_cancel_left, show c - x - c = -x by ring, abs_neg]
    split_ifs
    · ring
    · rw [show 4 * -x * -x = 4 * x * x by ring, div_neg]
  · simp only [v4, add_sub_cancel_left, show c - x - c = -x by ring, abs_neg, sgn_odd]; ring

/-- Non-trivial value: with scale 3, frequency 4 goes to 4/5 and back in version 1. -/
example : v1 3 0 4 = 4/5 ∧ v1Inv 3 0 (4/5) = 4 := by
  constructor
  · simp only [v1, sub_zero]
    rw [show (3:ℝ) * 3 + 4 * 4 = 5 * 5 by norm_num, Real.sqrt_mul_self (by norm_num)]
  · simp only [v1Inv]
    rw [show (1:ℝ) - 4/5 * (4/5) = 3/5 * (3/5) by norm_num, Real.sqrt_mul_self (by norm_num)]
    norm_num

/-! ### C20 -/

theorem sqrtT_eq (l : ℝ) : sqrtT l = v2 5 0 l := by
  simp only [sqrtT, v2, sub_zero]
  rw [show l ^ 4 + 4 * (5 * l) ^ 2 = l * l * (l * l) + 4 * (l * l) * 5 * 5 by ring, sq]
  ring

theorem sqrtLam_eq (t : ℝ) : sqrtLam t = v2Inv 5 0 t := by
  simp only [sqrtLam, v2Inv, zero_add]
  rw [show 5 * t * t / √(1 - t * t) * sgn t = 5 * t * (sgn t * t) / √(1 - t * t) by ring, sgn_mul_self]

/-- C20, square-root parametrisation (the one used by the flow): a change of variable for all real flow
parameters. -/
theorem c20_sqrt : ChangeOfVariable sqrtT sqrtLam := by
  have h1 : sqrtT = v2 5 0 := funext sqrtT_eq
  have h2 : sqrtLam = v2Inv 5 0 := funext sqrtLam_eq
  rw [h1, h2]; exact c21_v2 (by norm_num) 0

theorem log_ten_pos : 0 < Real.log 10 := Real.log_pos (by norm_num)

/-- C20, exponential parametrisation: inverse on positive flow parameters, strictly increasing. -/
theorem c20_exp : (∀ l, 0 < l → expLam (expT l) = l) ∧ (∀ t, expT (expLam t) = t) ∧
    StrictMono expLam ∧ (∀ a b, 0 < a → a < b → expT a < expT b) := by
  have h := log_ten_pos
  refine ⟨fun l hl => ?_, fun t => ?_, fun a b hab => ?_, fun a b ha hab => ?_⟩
  · simp only [expLam, expT, div_mul_cancel₀ _ h.ne', Real.exp_log hl]
  · simp only [expLam, expT, Real.log_exp, mul_div_cancel_right₀ _ h.ne']
  · exact Real.exp_lt_exp.mpr (mul_lt_mul_of_pos_right hab h)
  · exact div_lt_div_of_pos_right (Real.log_lt_log ha hab) h

/-- C20, logarithmic parametrisation: inverse for flow parameters above `-Lambda_scale`, strictly
decreasing. -/
theorem c20_log {S : ℝ} (hS : 0 < S) : (∀ l, -S < l → logLam S (logT S l) = l) ∧
    (∀ t, logT S (logLam S t) = t) ∧ StrictAnti (logLam S) ∧
    (∀ a b, -S < a → a < b → logT S b < logT S a) := by
  have h := log_ten_pos
  have hl10 : ∀ l, -S < l → 0 < 1 + l / S := by
    intro l hl
    have : -1 < l / S := by rw [lt_div_iff₀ hS]; linarith
    linarith
  have e10 : ∀ x : ℝ, (10:ℝ) ^ x = Real.exp (Real.log 10 * x) := fun x =>
    Real.rpow_def_of_pos (by norm_num) x
  refine ⟨fun l hl => ?_, fun t => ?_, fun a b hab => ?_, fun a b ha hab => ?_⟩
  · simp only [logLam, logT, neg_neg, e10, mul_div_cancel₀ _ h.ne', Real.exp_log (hl10 l hl)]
    field_simp; ring
  · simp only [logLam, logT]
    rw [mul_div_cancel_left₀ _ hS.ne', add_sub_cancel, e10, Real.log_exp]
    field_simp
  · simp only [logLam, e10]
    have : Real.exp (Real.log 10 * -b) < Real.exp (Real.log 10 * -a) :=
      Real.exp_lt_exp.mpr (by nlinarith)
    nlinarith
  · simp only [logT]
    have h1 : 1 + a / S < 1 + b / S := by
      have := div_lt_div_of_pos_right hab hS; linarith
    have := div_lt_div_of_pos_right (Real.log_lt_log (hl10 a ha) h1) h
    linarith

/-- C20, linear parametrisation. -/
theorem c20_linear : (∀ l, linLam (linT l) = l) ∧ (∀ t, linT (linLam t) = t) ∧ StrictMono linLam :=
  ⟨fun _ => rfl, fun _ => rfl, fun _ _ h => h⟩

/-- C20: the older substitution functions are inverse to each other (the square-root one on non-negative
values only). -/
theorem c20_substitutions {S : ℝ} (hS : 0 < S) : (∀ x, -S < x → logResubst S (logSubst S x) = x) ∧
    (∀ x, 0 ≤ x → sqResubst (sqSubst x) = x) := by
  constructor
  · intro x hx
    have := (c20_log hS).1 x hx
    simpa [logLam, logT, logResubst, logSubst] using this
  · intro x hx
    have h := c20_sqrt.back x
    rcases hx.eq_or_lt with e | hpos
    · subst e; simp [sqResubst, sqSubst]
    · have hT : sqrtT x = sqSubst x := by simp [sqrtT, sqSubst, sgn_pos hpos]
      have h0 : sqrtT 0 = 0 := by simp [sqrtT]
      have hTpos : 0 < sqSubst x := by
        have := c20_sqrt.toT_strictMono hpos; rwa [h0, hT] at this
      rw [hT] at h
      rw [← h]
      conv_lhs => rw [h]
      simp only [sqrtLam, sqResubst, sgn_pos hTpos]
      have : sqSubst x ^ 2 = sqSubst x * sqSubst x := sq _
      rw [this]; ring

/-! ### C74: the measures are the derivatives -/

theorem hasDerivAt_mul_abs (x : ℝ) : HasDerivAt (fun t : ℝ => t * |t|) (2 * |x|) x := by
  rcases lt_trichotomy x 0 with h | h | h
  · have h1 : HasDerivAt (fun t : ℝ => t * (-t)) (1 * (-x) + x * (-1)) x :=
      (hasDerivAt_id x).mul (hasDerivAt_neg x)
    rw [abs_of_neg h, show 2 * -x = 1 * (-x) + x * (-1) by ring]
    refine h1.congr_of_eventuallyEq ?_
    filter_upwards [Iio_mem_nhds h] with t ht
    rw [abs_of_neg ht]
  · subst h
    rw [abs_zero, mul_zero, hasDerivAt_iff_tendsto_slope_zero]
    have : Filter.Tendsto (fun t : ℝ => |t|) (nhdsWithin 0 {0}ᶜ) (nhds 0) := by
      have : Filter.Tendsto (fun t : ℝ => |t|) (nhds 0) (nhds |0|) := continuous_abs.tendsto 0
      rw [abs_zero] at this
      exact this.mono_left nhdsWithin_le_nhds
    refine this.congr' ?_
    filter_upwards [self_mem_nhdsWithin] with t ht
    have ht' : t ≠ 0 := ht
    simp only [zero_add, abs_zero, mul_zero, sub_zero, smul_eq_mul]
    field_simp
  · have h1 : HasDerivAt (fun t : ℝ => t * t) (1 * x + x * 1) x :=
      (hasDerivAt_id x).mul (hasDerivAt_id x)
    rw [abs_of_pos h, show 2 * x = 1 * x + x * 1 by ring]
    refine h1.congr_of_eventuallyEq ?_
    filter_upwards [Ioi_mem_nhds h] with t ht
    rw [abs_of_pos ht]

theorem hasDerivAt_sqrt_den {t : ℝ} (h : 0 < 1 - t * t) :
    HasDerivAt (fun t : ℝ => √(1 - t * t)) (-t / √(1 - t * t)) t := by
  have h1 : HasDerivAt (fun t : ℝ => 1 - t * t) (-(1 * t + t * 1)) t :=
    ((hasDerivAt_id t).mul (hasDerivAt_id t)).const_sub 1
  have h2 := h1.sqrt h.ne'
  have e : -(1 * t + t * 1) / (2 * √(1 - t * t)) = -t / √(1 - t * t) := by
    have := (Real.sqrt_pos.mpr h).ne'
    field_simp; ring
  rwa [e] at h2

/-- C74: each integration measure is the derivative of the inverse transformation. -/
theorem c74_measures (W c : ℝ) {t : ℝ} (h1 : -1 < t) (h2 : t < 1) :
    HasDerivAt (v1Inv W c) (measure1 W t) t ∧ HasDerivAt (v2Inv W c) (measure2 W t) t ∧
    HasDerivAt (v3Inv W c) (measure3 W t) t ∧ HasDerivAt (v4Inv W c) (measure4 W t) t := by
  have hd : 0 < 1 - t * t := by nlinarith
  have hs := Real.sqrt_pos.mpr hd
  have hss := Real.mul_self_sqrt hd.le
  have hden := hasDerivAt_sqrt_den hd
  have hden' : HasDerivAt (fun t : ℝ => 1 - t * t) (-(1 * t + t * 1)) t :=
    ((hasDerivAt_id t).mul (hasDerivAt_id t)).const_sub 1
  have hlin : HasDerivAt (fun t : ℝ => W * t) W t := by simpa using (hasDerivAt_id t).const_mul W
  have habs : HasDerivAt (fun t : ℝ => W * (t * |t|)) (W * (2 * |t|)) t := (hasDerivAt_mul_abs t).const_mul W
  refine ⟨?_, ?_, ?_, ?_⟩
  · have := (hlin.div hden hs.ne').const_add c
    refine this.congr_deriv ?_
    unfold measure1
    set q := √(1 - t * t)
    have hq2 : q ^ 2 = 1 - t * t := by rw [sq]; exact hss
    field_simp
    rw [hq2]
    ring
  · have := (habs.div hden hs.ne').const_add c
    have hf : v2Inv W c = fun x => c + ((fun t : ℝ => W * (t * |t|)) / fun t => √(1 - t * t)) x := by
      funext x; simp only [v2Inv, Pi.div_apply]; ring
    rw [hf]
    refine this.congr_deriv ?_
    unfold measure2
    rw [show W * sgn t * t * (2 - t * t) = W * (sgn t * t) * (2 - t * t) by ring, sgn_mul_self]
    set q := √(1 - t * t)
    have hq2 : q ^ 2 = 1 - t * t := by rw [sq]; exact hss
    field_simp
    rw [hq2]
    ring
  · have := (hlin.div hden' hd.ne').const_add c
    refine this.congr_deriv ?_
    unfold measure3
    field_simp
    ring
  · have := (habs.div hden' hd.ne').const_add c
    have hf : v4Inv W c = fun x => c + ((fun t : ℝ => W * (t * |t|)) / fun t : ℝ => 1 - t * t) x := by
      funext x
      simp only [v4Inv, Pi.div_apply]
      rw [show W * sgn x * (x * x) = W * (x * (sgn x * x)) by ring, sgn_mul_self]
    rw [hf]
    refine this.congr_deriv ?_
    unfold measure4
    rw [show 2 * W * sgn t * t = 2 * W * (sgn t * t) by ring, sgn_mul_self]
    field_simp
    ring

/-- C74: `dlambda_dt` of each flow parametrisation is the derivative of `lambda_from_t`. -/
theorem c74_flow_parametrisations (S t : ℝ) :
    HasDerivAt expLam (expD t) t ∧ HasDerivAt (logLam S) (logD S t) t ∧ HasDerivAt linLam (linD t) t ∧
      (-1 < t → t < 1 → HasDerivAt sqrtLam (sqrtD t) t) := by
  refine ⟨?_, ?_, hasDerivAt_id t, ?_⟩
  · have : HasDerivAt (fun t : ℝ => t * Real.log 10) (1 * Real.log 10) t :=
      (hasDerivAt_id t).mul_const _
    have := this.exp
    rw [one_mul] at this
    exact this
  · have h1 : HasDerivAt (fun t : ℝ => (10:ℝ) ^ (-t)) (Real.log 10 * (-1) * (10:ℝ) ^ (-t)) t :=
      (hasDerivAt_neg t).const_rpow (by norm_num)
    have := (h1.sub_const 1).const_mul S
    refine this.congr_deriv ?_
    unfold logD; ring
  · intro h1 h2
    have := (c74_measures 5 0 h1 h2).2.1
    rw [show sqrtLam = v2Inv 5 0 from funext sqrtLam_eq]
    refine this.congr_deriv ?_
    unfold measure2 sqrtD
    rw [show 5 * sgn t * t * (2 - t * t) = 5 * (sgn t * t) * (2 - t * t) by ring, sgn_mul_self]

end Verif.GridMap
