import Verif.Tails.Lemmas
import Mathlib.Data.Complex.Basic

/-! C98: the analytic tails of the bubble. -/
namespace Verif.Tails
open Complex MeasureTheory Filter Topology

/-- The propagator of regulator 2 at imaginary frequency `ν` with the (real) Hartree self-energy; with particle-hole
symmetry the self-energy is measured from half filling and vanishes. -/
noncomputable def prop2 (phs : Bool) (p : Propagator.Par) (H : ℝ) (ν : ℝ) : ℂ :=
  Propagator.gM2 phs 1 { p with v := ν } (if phs then 0 else H)

/-- The single-scale propagator. -/
noncomputable def single2 (phs : Bool) (p : Propagator.Par) (H : ℝ) (ν : ℝ) : ℂ :=
  Propagator.sM2 phs 1 { p with v := ν } (if phs then 0 else H)

theorem prop2_pos {p : Propagator.Par} {H ν : ℝ} (h : 0 < ν) :
    prop2 false p H ν = 1 / (I * ((ν : ℂ) + ((p.Gam + p.Lam) / 2 : ℝ) + I * (p.eps + H))) := by
  simp only [prop2, Propagator.gM2, Propagator.g0Minv, Propagator.sign, h, not_lt_of_gt h, Bool.false_eq_true, if_true, if_false]
  congr 1; push_cast
  linear_combination (-(p.eps + H) : ℂ) * I_mul_I

theorem prop2_neg {p : Propagator.Par} {H ν : ℝ} (h : ν < 0) :
    prop2 false p H ν = 1 / (-I * (-(ν : ℂ) + ((p.Gam + p.Lam) / 2 : ℝ) - I * (p.eps + H))) := by
  simp only [prop2, Propagator.gM2, Propagator.g0Minv, Propagator.sign, h, not_lt_of_gt h, Bool.false_eq_true, if_true, if_false]
  congr 1; push_cast
  linear_combination (-(p.eps + H) : ℂ) * I_mul_I

theorem single2_eq {p : Propagator.Par} {H ν : ℝ} :
    single2 false p H ν = -0.5 * I * prop2 false p H ν * prop2 false p H ν * (Propagator.sign ν : ℝ) := by
  simp [single2, prop2, Propagator.sM2]

theorem prop2_phs_pos {p : Propagator.Par} {H ν : ℝ} (h : 0 < ν) :
    prop2 true p H ν = 1 / ((ν : ℂ) + ((p.Gam + p.Lam) / 2 : ℝ)) := by
  simp only [prop2, Propagator.gM2, Propagator.g0Minv, Propagator.sign, h, not_lt_of_gt h, if_true, if_false]
  congr 1; push_cast; ring

theorem prop2_phs_neg {p : Propagator.Par} {H ν : ℝ} (h : ν < 0) :
    prop2 true p H ν = 1 / (-(-(ν : ℂ) + ((p.Gam + p.Lam) / 2 : ℝ))) := by
  simp only [prop2, Propagator.gM2, Propagator.g0Minv, Propagator.sign, h, not_lt_of_gt h, if_true, if_false]
  congr 1; push_cast; ring

theorem single2_phs_eq {p : Propagator.Par} {H ν : ℝ} :
    single2 true p H ν = -0.5 * prop2 true p H ν * prop2 true p H ν * (Propagator.sign ν : ℝ) := by
  simp [single2, prop2, Propagator.sM2]

theorem sign_pos {x : ℝ} (h : 0 < x) : Propagator.sign x = 1 := by simp [Propagator.sign, h, not_lt_of_gt h]
theorem sign_neg {x : ℝ} (h : x < 0) : Propagator.sign x = -1 := by simp [Propagator.sign, h, not_lt_of_gt h]

theorem I_sq' : (I : ℂ) * I = -1 := I_mul_I

/-- Quotients of four. -/
theorem quot_mul (a b : ℂ) : 1 / (I * a) * (1 / (I * b)) = -1 * (1 / (a * b)) := by
  rw [div_mul_div_comm, one_mul, show I * a * (I * b) = -(a * b) by linear_combination (a * b) * I_mul_I, div_neg]; ring
theorem quot_mul' (a b : ℂ) : 1 / (-I * a) * (1 / (-I * b)) = -1 * (1 / (a * b)) := by
  rw [div_mul_div_comm, one_mul, show -I * a * (-I * b) = -(a * b) by linear_combination (a * b) * I_mul_I, div_neg]; ring
theorem quot_mul'' (a b : ℂ) : 1 / (I * a) * (1 / (-I * b)) = 1 / (a * b) := by
  rw [div_mul_div_comm, one_mul, show I * a * (-I * b) = (a * b) by linear_combination (-a * b) * I_mul_I]

/-- With particle-hole symmetry the formula is the one without at the symmetric point. -/
theorem atPHS_eq {w vmin vmax Δ : ℝ} (diff : Bool) (h1 : |w| / 2 < vmax + Δ) (h2 : |w| / 2 < -vmin + Δ) :
    (atPHS w vmin vmax Δ diff : ℂ) = atNoPHS w vmin vmax ((0 : ℝ) : ℂ) Δ diff := by
  have hw := abs_le.mp (le_refl |w|)
  cases diff
  · by_cases h0 : w = 0
    · simp [atPHS, atNoPHS, h0]
    · simp only [atPHS, atNoPHS, h0, Bool.false_eq_true, if_false, ofReal_mul, ofReal_div, ofReal_one]
      rw [ofReal_log]
      · push_cast; congr 2; ring_nf
      · have a1 : 0 < -vmin - w / 2 + Δ := by linarith
        have a2 : 0 < vmax - w / 2 + Δ := by linarith
        have a3 : 0 < -vmin + w / 2 + Δ := by linarith
        have a4 : 0 < vmax + w / 2 + Δ := by linarith
        positivity
  · simp [atPHS, atNoPHS]

theorem pPHS_eq {w vmin vmax Δ : ℝ} (h1 : |w| / 2 < vmax + Δ) (h2 : |w| / 2 < -vmin + Δ) :
    (pPHS w vmin vmax Δ false : ℂ) = pNoPHS w vmin vmax ((0 : ℝ) : ℂ) Δ false := by
  have hw := abs_le.mp (le_refl |w|)
  by_cases h0 : w = 0
  · simp [pPHS, atPHS, pNoPHS, h0]; ring
  · simp only [pPHS, atPHS, pNoPHS, h0, Bool.false_eq_true, if_false, ofReal_mul, ofReal_div, ofReal_one, ofReal_neg,
      ofReal_zero, and_false]
    rw [show ((-vmin - w / 2 + Δ) * (vmax - w / 2 + Δ)) / ((-vmin + w / 2 + Δ) * (vmax + w / 2 + Δ)) =
      (((-vmin + w / 2 + Δ) * (vmax + w / 2 + Δ)) / ((-vmin - w / 2 + Δ) * (vmax - w / 2 + Δ)))⁻¹ by rw [inv_div],
      Real.log_inv, ofReal_neg, ofReal_log]
    · push_cast; rw [mul_neg, neg_neg]; congr 2 <;> ring_nf
    · have a1 : 0 < -vmin - w / 2 + Δ := by linarith
      have a2 : 0 < vmax - w / 2 + Δ := by linarith
      have a3 : 0 < -vmin + w / 2 + Δ := by linarith
      have a4 : 0 < vmax + w / 2 + Δ := by linarith
      positivity

theorem pPHS_diff_eq {w vmin vmax Δ : ℝ} :
    (pPHS w vmin vmax Δ true : ℂ) = -pNoPHS w vmin vmax ((0 : ℝ) : ℂ) Δ true := by
  simp [pPHS, atPHS, pNoPHS]

/-- C98 (imaginary frequencies, regulator 2, no particle-hole symmetry): the analytic tail is the contribution of the
frequencies outside the box to the integral of the bubble of propagators with the Hartree self-energy `H`; the box
reaches beyond the transfer frequency and the level position. -/
theorem c98_matsubara (p : Propagator.Par) (H w vmin vmax : ℝ) (hyb : 0 ≤ p.Gam + p.Lam)
    (ch : Bool) (h1 : |w| / 2 + |p.eps + H| < vmax) (h2 : |w| / 2 + |p.eps + H| < -vmin) :
    ∃ x, matsubaraTail 2 false ch w vmin vmax (p.eps + H) p.Gam p.Lam false = some (.ok x) ∧
      IsTail (bubbleValue false ch false (prop2 false p H) (single2 false p H) w) vmin vmax x := by
  have hw := abs_le.mp (le_refl |w|)
  have he := abs_nonneg (p.eps + H)
  have hΔ : 0 ≤ (p.Gam + p.Lam) / 2 := by linarith
  refine ⟨_, by simp only [matsubaraTail, Bool.false_eq_true, if_true, if_false]; rfl, ?_⟩
  have hc : ((p.eps : ℂ) + (H : ℂ)) = ((p.eps + H : ℝ) : ℂ) := by push_cast; rfl
  rw [hc]
  cases ch
  · simp only [hybridisation, if_true, Bool.false_eq_true, if_false]
    apply tail_at (by linarith) (by linarith)
    · intro v hv
      simp only [bubbleValue, Bool.false_eq_true, if_false]
      rw [prop2_pos (by linarith), prop2_pos (by linarith), quot_mul]
      push_cast; ring_nf
    · intro v hv
      simp only [bubbleValue, Bool.false_eq_true, if_false]
      rw [prop2_neg (by linarith), prop2_neg (by linarith), quot_mul']
      push_cast; ring_nf
  · simp only [hybridisation, if_true]
    apply tail_p (by linarith) (by linarith)
    · intro v hv
      simp only [bubbleValue, Bool.false_eq_true, if_false, if_true]
      rw [prop2_pos (by linarith), prop2_neg (by linarith), quot_mul'']
      push_cast; ring_nf
    · intro v hv
      simp only [bubbleValue, Bool.false_eq_true, if_false, if_true]
      rw [prop2_neg (by linarith), prop2_pos (by linarith), mul_comm, quot_mul'']
      push_cast; ring_nf

/-- C98 (with particle-hole symmetry). -/
theorem c98_matsubara_phs (p : Propagator.Par) (H w vmin vmax : ℝ) (hyb : 0 ≤ p.Gam + p.Lam) (eps : ℂ)
    (ch diff : Bool) (h1 : |w| / 2 < vmax) (h2 : |w| / 2 < -vmin) :
    ∃ x : ℝ, matsubaraTail 2 true ch w vmin vmax eps p.Gam p.Lam diff = some (.ok x) ∧
      IsTail (bubbleValue true ch diff (prop2 true p H) (single2 true p H) w) vmin vmax x := by
  have hw := abs_le.mp (le_refl |w|)
  have hΔ : 0 ≤ (p.Gam + p.Lam) / 2 := by linarith
  refine ⟨_, by simp only [matsubaraTail, if_true]; rfl, ?_⟩
  have hz : |(0 : ℝ)| = 0 := abs_zero
  cases ch <;> cases diff
  · simp only [hybridisation, if_true, Bool.false_eq_true, if_false]
    rw [atPHS_eq _ (by linarith) (by linarith)]
    apply tail_at (by linarith) (by linarith)
    · intro v hv
      simp only [bubbleValue, Bool.false_eq_true, if_false, if_true]
      rw [prop2_phs_pos (by linarith), prop2_phs_pos (by linarith), div_mul_div_comm]
      push_cast; ring_nf
    · intro v hv
      simp only [bubbleValue, Bool.false_eq_true, if_false, if_true]
      rw [prop2_phs_neg (by linarith), prop2_phs_neg (by linarith), div_mul_div_comm]
      push_cast; ring_nf
  · simp only [hybridisation, if_true, Bool.false_eq_true, if_false]
    rw [atPHS_eq _ (by linarith) (by linarith)]
    apply tail_at_diff (by linarith) (by linarith)
    · intro v hv
      simp only [bubbleValue, Bool.false_eq_true, if_false, if_true]
      rw [single2_phs_eq, single2_phs_eq, prop2_phs_pos (by linarith), prop2_phs_pos (by linarith), sign_pos (by linarith),
        sign_pos (by linarith)]
      push_cast; simp only [one_div, mul_inv, ← inv_pow]; ring_nf
    · intro v hv
      simp only [bubbleValue, Bool.false_eq_true, if_false, if_true]
      rw [single2_phs_eq, single2_phs_eq, prop2_phs_neg (by linarith), prop2_phs_neg (by linarith), sign_neg (by linarith),
        sign_neg (by linarith)]
      push_cast; simp only [one_div, mul_inv, ← inv_pow, inv_neg]; ring_nf
  · simp only [hybridisation, if_true]
    rw [pPHS_eq (by linarith) (by linarith)]
    apply tail_p (by linarith) (by linarith)
    · intro v hv
      simp only [bubbleValue, Bool.false_eq_true, if_false, if_true]
      rw [prop2_phs_pos (by linarith), prop2_phs_neg (by linarith)]
      push_cast; simp only [one_div, mul_inv, ← inv_pow, inv_neg]; ring_nf
    · intro v hv
      simp only [bubbleValue, Bool.false_eq_true, if_false, if_true]
      rw [prop2_phs_neg (by linarith), prop2_phs_pos (by linarith)]
      push_cast; simp only [one_div, mul_inv, ← inv_pow, inv_neg]; ring_nf
  · simp only [hybridisation, if_true]
    rw [pPHS_diff_eq]
    apply tail_p_diff (by linarith) (by linarith)
    · intro v hv
      simp only [bubbleValue, if_true]
      rw [single2_phs_eq, single2_phs_eq, prop2_phs_pos (by linarith), prop2_phs_neg (by linarith), sign_neg (by linarith),
        sign_pos (by linarith)]
      push_cast; simp only [one_div, mul_inv, ← inv_pow, inv_neg]; ring_nf
    · intro v hv
      simp only [bubbleValue, if_true]
      rw [single2_phs_eq, single2_phs_eq, prop2_phs_neg (by linarith), prop2_phs_pos (by linarith), sign_pos (by linarith),
        sign_neg (by linarith)]
      push_cast; simp only [one_div, mul_inv, ← inv_pow, inv_neg]; ring_nf

/-- C98 (derivative with respect to the flow parameter, no particle-hole symmetry): right in the a- and t-channel, and the
negative of the right value in the p-channel. -/
theorem c98_matsubara_diff_partial (p : Propagator.Par) (H w vmin vmax : ℝ) (hyb : 0 ≤ p.Gam + p.Lam)
    (ch : Bool) (h1 : |w| / 2 < vmax) (h2 : |w| / 2 < -vmin) :
    ∃ x, matsubaraTail 2 false ch w vmin vmax (p.eps + H) p.Gam p.Lam true = some (.ok x) ∧
      IsTail (bubbleValue false ch true (prop2 false p H) (single2 false p H) w) vmin vmax (if ch then -x else x) := by
  have hw := abs_le.mp (le_refl |w|)
  have hΔ : 0 ≤ (p.Gam + p.Lam) / 2 := by linarith
  refine ⟨_, by simp only [matsubaraTail, Bool.false_eq_true, if_true, if_false]; rfl, ?_⟩
  have hc : ((p.eps : ℂ) + (H : ℂ)) = ((p.eps + H : ℝ) : ℂ) := by push_cast; rfl
  have hI3 : (I : ℂ)⁻¹ = -I := inv_I
  have hI2 : (I : ℂ) ^ 2 = -1 := I_sq
  have hI4 : (I : ℂ) ^ 4 = 1 := I_pow_four
  rw [hc]
  cases ch
  · simp only [hybridisation, if_true, Bool.false_eq_true, if_false]
    apply tail_at_diff (by linarith) (by linarith)
    · intro v hv
      simp only [bubbleValue, Bool.false_eq_true, if_false, if_true]
      rw [single2_eq, single2_eq, prop2_pos (by linarith), prop2_pos (by linarith), sign_pos (by linarith),
        sign_pos (by linarith)]
      push_cast; simp only [one_div, mul_inv, ← inv_pow, hI3]; ring_nf; simp only [hI4]; ring_nf
    · intro v hv
      simp only [bubbleValue, Bool.false_eq_true, if_false, if_true]
      rw [single2_eq, single2_eq, prop2_neg (by linarith), prop2_neg (by linarith), sign_neg (by linarith),
        sign_neg (by linarith)]
      push_cast; simp only [one_div, mul_inv, ← inv_pow, inv_neg, hI3]; ring_nf; simp only [hI4]; ring_nf
  · simp only [hybridisation, if_true]
    apply tail_p_diff (by linarith) (by linarith)
    · intro v hv
      simp only [bubbleValue, Bool.false_eq_true, if_false, if_true]
      rw [single2_eq, single2_eq, prop2_pos (by linarith), prop2_neg (by linarith), sign_neg (by linarith),
        sign_pos (by linarith)]
      push_cast; simp only [one_div, mul_inv, ← inv_pow, inv_neg, hI3]; ring_nf; simp only [hI4]; ring_nf
    · intro v hv
      simp only [bubbleValue, Bool.false_eq_true, if_false, if_true]
      rw [single2_eq, single2_eq, prop2_neg (by linarith), prop2_pos (by linarith), sign_pos (by linarith),
        sign_neg (by linarith)]
      push_cast; simp only [one_div, mul_inv, ← inv_pow, inv_neg, hI3]; ring_nf; simp only [hI4]; ring_nf

/-- C98 (negative): without particle-hole symmetry the differentiated tail of the p-channel has the wrong sign. -/
theorem c98_matsubara_diff_refuted : ∃ (p : Propagator.Par) (H w vmin vmax : ℝ) (x : ℂ),
    0 < p.Gam ∧ 0 < p.Lam ∧ |w| / 2 + |p.eps + H| < vmax ∧ |w| / 2 + |p.eps + H| < -vmin ∧
    matsubaraTail 2 false true w vmin vmax (p.eps + H) p.Gam p.Lam true = some (.ok x) ∧
    ¬ IsTail (bubbleValue false true true (prop2 false p H) (single2 false p H) w) vmin vmax x := by
  obtain ⟨x, hx, ht⟩ := c98_matsubara_diff_partial ⟨1, 0, 1, 0, 0, 0⟩ 0 0 (-1) 1 (by norm_num) true (by norm_num) (by norm_num)
  refine ⟨⟨1, 0, 1, 0, 0, 0⟩, 0, 0, -1, 1, x, by norm_num, by norm_num, by norm_num, by norm_num, hx, fun h => ?_⟩
  have := ht.unique h
  simp only [if_true] at this
  have hx0 : x = 0 := by linear_combination (-1 / 2 : ℂ) * this
  simp only [matsubaraTail, if_true, Bool.false_eq_true, if_false, Option.some.injEq, Except.ok.injEq, pNoPHS, hybridisation] at hx
  rw [hx0] at hx
  norm_num at hx

/-- C98 (negative): one principal logarithm of the product of four factors is not the sum of the four logarithms when the
box is small compared to the level position; the tail is then off. -/
theorem c98_branch_refuted : ∃ (p : Propagator.Par) (H w vmin vmax : ℝ) (x : ℂ),
    0 < p.Gam ∧ 0 < p.Lam ∧ |w| / 2 < vmax ∧ |w| / 2 < -vmin ∧
    matsubaraTail 2 false true w vmin vmax (p.eps + H) p.Gam p.Lam false = some (.ok x) ∧
    ¬ IsTail (bubbleValue false true false (prop2 false p H) (single2 false p H) w) vmin vmax x := by
  refine ⟨⟨1, 3, 1, 0, 0, 0⟩, 0, 0, -1, 1, _, by norm_num, by norm_num, by norm_num, by norm_num, by
    simp only [matsubaraTail, if_true, Bool.false_eq_true, if_false]; rfl, fun h => ?_⟩
  have r1 : ((1 : ℂ) + I * 3).re = 1 := by simp
  have r2 : ((1 : ℂ) - I * 3).re = 1 := by simp
  have hne : ((1 : ℂ) + I * 3) ≠ 1 - I * 3 := by
    intro h; have := congrArg Complex.im h; norm_num at this
  have hx := upper_pair (a := 1) (α := (1 + I * 3 : ℂ)) (β := (1 - I * 3 : ℂ)) (by rw [r1]; norm_num) (by rw [r2]; norm_num) hne
  have ht := isTail_of (vmin := -1) (f := bubbleValue false true false (prop2 false ⟨1, 3, 1, 0, 0, 0⟩ 0) (single2 false ⟨1, 3, 1, 0, 0, 0⟩ 0) 0)
    (fun v hv => ?_) (fun v hv => ?_) hx (by rw [neg_neg]; exact hx)
  · have hu := h.unique ht
    rw [show (1 - I * 3 - (1 + I * 3) : ℂ) = -(6 * I) by ring] at hu
    have h30 : ¬ (((3 : ℝ) : ℂ) + ((0 : ℝ) : ℂ) = 0) := by norm_num
    simp only [pNoPHS, hybridisation, Bool.false_eq_true, if_false, if_true, h30, false_and] at hu
    have hI : (6 * I : ℂ) ≠ 0 := mul_ne_zero (by norm_num) I_ne_zero
    have hu2 := congrArg (fun z => 6 * I * z) hu
    set z : ℂ := 2 + 3 * I with hz
    have hzc : (starRingEnd ℂ) z = 2 - 3 * I := by rw [hz]; simp [Complex.ext_iff]
    rw [show (((1 : ℝ) : ℂ) + (1 - I * 3)) = (starRingEnd ℂ) z by rw [hzc]; push_cast; ring,
      show (((1 : ℝ) : ℂ) + (1 + I * 3)) = z by rw [hz]; push_cast; ring] at hu2
    have e1 : (6 * I * (1 / -(6 * I) * (log ((starRingEnd ℂ) z) - log z) + 1 / -(6 * I) * (log ((starRingEnd ℂ) z) - log z)) : ℂ)
        = 2 * (log z - log ((starRingEnd ℂ) z)) := by
      rw [div_neg]; field_simp; ring
    rw [e1] at hu2
    have e2 : ((((0 : ℝ) : ℂ) + 2 * I * (((3 : ℝ) : ℂ) + ((0 : ℝ) : ℂ)))) = 6 * I := by push_cast; ring
    rw [e2, ← mul_assoc, mul_one_div_cancel hI, one_mul] at hu2
    have him := congrArg Complex.im hu2
    have hzim : (2 * (log z - log ((starRingEnd ℂ) z)) : ℂ).im = 4 * arg z := by
      have hare : arg z ≠ Real.pi := by
        intro h
        rw [arg_eq_pi_iff] at h
        have := h.1
        rw [hz] at this; norm_num at this
      have : arg ((starRingEnd ℂ) z) = -arg z := by rw [arg_conj, if_neg hare]
      rw [show (2 * (log z - log ((starRingEnd ℂ) z)) : ℂ) = ((2 : ℝ) : ℂ) * (log z - log ((starRingEnd ℂ) z)) by push_cast; rfl,
        im_ofReal_mul, sub_im, log_im, log_im, this]
      ring
    rw [hzim, log_im] at him
    have hle := arg_le_pi ((-((-1 : ℝ) : ℂ) + ((0 : ℝ) : ℂ) / 2 + I * (((3 : ℝ) : ℂ) + ((0 : ℝ) : ℂ)) + ((((1 : ℝ) + 1) / 2 : ℝ) : ℂ)) *
      (((1 : ℝ) : ℂ) + ((0 : ℝ) : ℂ) / 2 + I * (((3 : ℝ) : ℂ) + ((0 : ℝ) : ℂ)) + ((((1 : ℝ) + 1) / 2 : ℝ) : ℂ)) /
      ((-((-1 : ℝ) : ℂ) - ((0 : ℝ) : ℂ) / 2 - I * (((3 : ℝ) : ℂ) + ((0 : ℝ) : ℂ)) + ((((1 : ℝ) + 1) / 2 : ℝ) : ℂ)) *
      (((1 : ℝ) : ℂ) - ((0 : ℝ) : ℂ) / 2 - I * (((3 : ℝ) : ℂ) + ((0 : ℝ) : ℂ)) + ((((1 : ℝ) + 1) / 2 : ℝ) : ℂ))))
    rw [him] at hle
    -- the angle of `2 + 3i` is larger than `π / 4`
    have hbig : Real.pi / 4 < arg z := by
      have hre : z.re = 2 := by rw [hz]; simp
      have hzi : z.im = 3 := by rw [hz]; simp
      have hn : 0 < ‖z‖ := norm_pos_iff.mpr (by intro h; rw [h] at hre; norm_num at hre)
      have hsq : ‖z‖ ^ 2 = 13 := by rw [Complex.sq_norm, normSq_apply, hre, hzi]; norm_num
      rw [arg_of_re_nonneg (by rw [hre]; norm_num), hzi,
        Real.lt_arcsin_iff_sin_lt' ⟨by linarith [Real.pi_pos], by linarith [Real.pi_pos]⟩, Real.sin_pi_div_four,
        lt_div_iff₀ hn]
      apply lt_of_pow_lt_pow_left₀ 2 (by norm_num)
      rw [mul_pow, div_pow, Real.sq_sqrt (by norm_num), hsq]
      norm_num
    linarith
  · simp only [bubbleValue, Bool.false_eq_true, if_false, if_true]
    rw [prop2_pos (by linarith), prop2_neg (by linarith), quot_mul'']
    push_cast; ring_nf
  · simp only [bubbleValue, Bool.false_eq_true, if_false, if_true]
    rw [prop2_neg (by linarith), prop2_pos (by linarith), mul_comm, quot_mul'']
    push_cast; ring_nf

/-- Propagators of the interaction regulator with particle-hole symmetry and vanishing self-energy. -/
noncomputable def prop4 (p : Propagator.Par) (ν : ℝ) : ℂ := Propagator.gM4 true 1 { p with v := ν } 0
/-- The single-scale propagator. -/
noncomputable def single4 (p : Propagator.Par) (ν : ℝ) : ℂ := Propagator.sM4 true 1 { p with v := ν } 0

theorem prop4_eq (p : Propagator.Par) (ν : ℝ) : prop4 p ν = p.Lam * prop2 true { p with Lam := 0 } 0 ν := by
  simp [prop4, prop2, Propagator.gM4, Propagator.gM2, Propagator.g0Minv, div_eq_mul_inv]

theorem single4_eq (p : Propagator.Par) (ν : ℝ) : single4 p ν = prop2 true { p with Lam := 0 } 0 ν := by
  simp only [single4, prop2, Propagator.sM4, Propagator.gM2, Propagator.g0Minv, if_true, mul_zero, sub_zero, zero_mul,
    ofReal_zero, add_zero]
  set x : ℂ := ((ν * 1 + p.Gam * 0.5 * Propagator.sign ν : ℝ) : ℂ)
  by_cases h : x = 0
  · rw [h]; simp
  · field_simp

theorem reg4_eq {w vmin vmax Δ : ℝ} (hw : w = 0 ∨ 1 / 10 ^ 20 ≤ |w|) (h1 : |w| / 2 < vmax + Δ) (h2 : |w| / 2 < -vmin + Δ) :
    reg4 w vmin vmax Δ = atPHS w vmin vmax Δ false := by
  have hwa := abs_le.mp (le_refl |w|)
  rcases hw with h0 | h0
  · rw [h0]; simp only [reg4, atPHS, abs_zero, Bool.false_eq_true, if_false, if_true]; rw [if_pos (by norm_num)]
  · have hne : w ≠ 0 := by rintro rfl; norm_num at h0
    have a1 : 0 < -vmin - w / 2 + Δ := by linarith
    have a2 : 0 < vmax - w / 2 + Δ := by linarith
    have a3 : 0 < -vmin + w / 2 + Δ := by linarith
    have a4 : 0 < vmax + w / 2 + Δ := by linarith
    have b : vmin + w * 0.5 - Δ ≠ 0 := by norm_num; linarith
    have b2 : vmax - w * 0.5 + Δ ≠ 0 := by norm_num; linarith
    simp only [reg4, atPHS, hne, Bool.false_eq_true, if_false]
    rw [if_neg (not_lt.mpr h0)]
    rw [show (vmax + w * 0.5 + Δ) * (vmin - w * 0.5 - Δ) / ((vmax - w * 0.5 + Δ) * (vmin + w * 0.5 - Δ)) =
      (((-vmin - w / 2 + Δ) * (vmax - w / 2 + Δ)) / ((-vmin + w / 2 + Δ) * (vmax + w / 2 + Δ)))⁻¹ by
        rw [inv_div, div_eq_div_iff (mul_ne_zero b2 b) (by positivity)]; ring, Real.log_inv]
    ring

/-- C98 (interaction regulator with particle-hole symmetry): the same for its propagators; transfer frequencies that are
zero or not tiny. -/
theorem c98_interaction (p : Propagator.Par) (w vmin vmax : ℝ) (hyb : 0 ≤ p.Gam) (eps : ℂ) (ch diff : Bool)
    (hw : w = 0 ∨ 1 / 10 ^ 20 ≤ |w|) (h1 : |w| / 2 < vmax) (h2 : |w| / 2 < -vmin) :
    ∃ x : ℝ, matsubaraTail 4 true ch w vmin vmax eps p.Gam p.Lam diff = some (.ok x) ∧
      IsTail (bubbleValue true ch diff (prop4 p) (single4 p) w) vmin vmax x := by
  obtain ⟨x, hx, ht⟩ := c98_matsubara_phs { p with Lam := 0 } 0 w vmin vmax (by simpa using hyb) eps ch false h1 h2
  have hr : ∀ k : ℝ, reg4Channel ch w vmin vmax (p.Gam / 2) k diff = (if diff then 2 * k else k * k) * x := by
    intro k
    simp only [matsubaraTail, if_true, Option.some.injEq, Except.ok.injEq, hybridisation, ofReal_inj, add_zero] at hx
    rw [← hx]
    simp only [reg4Channel, pPHS]
    rw [reg4_eq hw (by linarith) (by linarith)]
    cases ch <;> cases diff <;> simp
  refine ⟨reg4Channel ch w vmin vmax (p.Gam / 2) p.Lam diff, by simp [matsubaraTail, hybridisation], ?_⟩
  rw [hr]
  have hs := ht.smul ((if diff then 2 * p.Lam else p.Lam * p.Lam : ℝ) : ℂ)
  rw [ofReal_mul]
  convert hs using 1
  funext v
  simp only [bubbleValue, prop4_eq, single4_eq, if_true]
  cases diff <;> simp <;> ring

/-- C98 (negative): without particle-hole symmetry no tail exists for the frequency and interaction regulators: the error
message is constructed but not thrown and no value is returned. -/
theorem c98_unimplemented_refuted (reg : Nat) (h : reg = 3 ∨ reg = 4) (ch diff : Bool) (w vmin vmax Gam Lam : ℝ) (eps : ℂ) :
    matsubaraTail reg false ch w vmin vmax eps Gam Lam diff = some (.error .undefined) := by
  rcases h with rfl | rfl <;> simp [matsubaraTail]

/-- A retarded (`η = 1`) or advanced propagator with the Hartree self-energy. -/
noncomputable def propRA (η : ℝ) (p : Propagator.Par) (H : ℝ) (ν : ℝ) : ℂ :=
  if η = 1 then Propagator.gR2 { p with v := ν } ⟨H, 0, 0⟩
  else (starRingEnd ℂ) (Propagator.gR2 { p with v := ν } ⟨H, 0, 0⟩)

theorem propRA_eq {η : ℝ} (h : η = 1 ∨ η = -1) (p : Propagator.Par) (H ν : ℝ) :
    propRA η p H ν = 1 / ((ν : ℂ) - (p.eps + H : ℝ) + η * I * ((p.Gam + p.Lam) / 2 : ℝ)) := by
  rcases h with rfl | rfl
  · simp only [propRA, if_true, Propagator.gR2, Propagator.g0Rinv]
    congr 1; push_cast; ring
  · simp only [propRA, Propagator.gR2, Propagator.g0Rinv]
    rw [if_neg (by norm_num)]
    rw [map_div₀, map_one]
    congr 1
    simp only [map_add, map_sub, map_mul, conj_ofReal, conj_I]
    rw [show (starRingEnd ℂ) (0.5 : ℂ) = 0.5 by
      rw [show (0.5 : ℂ) = ((0.5 : ℝ) : ℂ) by norm_num, conj_ofReal]]
    push_cast; ring

/-- C98 (real frequencies, regulator 2): the tails of products of retarded and advanced propagators, for a box that
reaches beyond transfer frequency, level position and hybridisation. -/
theorem c98_keldysh (p : Propagator.Par) (H w vmin vmax η₁ η₂ : ℝ) (hyb : 0 < p.Gam + p.Lam)
    (g1 : η₁ = 1 ∨ η₁ = -1) (g2 : η₂ = 1 ∨ η₂ = -1)
    (h1 : |w| / 2 + |p.eps + H| + (p.Gam + p.Lam) / 2 < vmax) (h2 : |w| / 2 + |p.eps + H| + (p.Gam + p.Lam) / 2 < -vmin) :
    IsTail (fun v => propRA η₁ p H (v - w / 2) * propRA η₂ p H (v + w / 2)) vmin vmax
      (atKeldysh w vmin vmax (p.eps + H : ℝ) ((p.Gam + p.Lam) / 2) η₁ η₂ false) ∧
    IsTail (fun v => propRA η₁ p H (w / 2 + v) * propRA η₂ p H (w / 2 - v)) vmin vmax
      (pKeldysh w vmin vmax (p.eps + H : ℝ) ((p.Gam + p.Lam) / 2) η₁ η₂ false) := by
  have a1 : |η₁| = 1 := by rcases g1 with rfl | rfl <;> norm_num
  have a2 : |η₂| = 1 := by rcases g2 with rfl | rfl <;> norm_num
  have hn : vmin ≤ 0 := by linarith [abs_nonneg w, abs_nonneg (p.eps + H)]
  constructor
  · apply tail_at_keldysh (by linarith) a1 a2 hn h1 h2
    intro v
    rw [propRA_eq g1, propRA_eq g2, div_mul_div_comm]
    push_cast; ring_nf
  · apply tail_p_keldysh (by linarith) a1 a2 hn h1 h2
    intro v
    rw [propRA_eq g1, propRA_eq g2, div_mul_div_comm, one_mul, mul_one_div]
    rw [← div_neg_eq_neg_div' ]
    push_cast; ring_nf

/-- The single-scale propagator belonging to `propRA 1`. -/
noncomputable def singleR (p : Propagator.Par) (H : ℝ) (ν : ℝ) : ℂ := Propagator.sR2 { p with v := ν } ⟨H, 0, 0⟩

/-- The tails of the differentiated product of two retarded propagators. -/
theorem tail_retarded_diff (p : Propagator.Par) (H w vmin vmax : ℝ)
    (h1 : |w| / 2 + |p.eps + H| < vmax) (h2 : |w| / 2 + |p.eps + H| < -vmin) :
    IsTail (fun v => propRA 1 p H (v - w / 2) * singleR p H (v + w / 2) + singleR p H (v - w / 2) * propRA 1 p H (v + w / 2))
      vmin vmax
      (I / 2 * (1 / (((vmin - w / 2 - (p.eps + H) : ℝ) + I * ((p.Gam + p.Lam) / 2 : ℝ)) *
          ((vmin + w / 2 - (p.eps + H) : ℝ) + I * ((p.Gam + p.Lam) / 2 : ℝ))) -
        1 / (((vmax - w / 2 - (p.eps + H) : ℝ) + I * ((p.Gam + p.Lam) / 2 : ℝ)) *
          ((vmax + w / 2 - (p.eps + H) : ℝ) + I * ((p.Gam + p.Lam) / 2 : ℝ))))) := by
  set e := p.eps + H with he
  set Δ := (p.Gam + p.Lam) / 2 with hΔ
  have a1 := abs_le.mp (le_refl |w|)
  have a2 := abs_le.mp (le_refl |e|)
  set α : ℂ := (-(w / 2) - e : ℝ) + I * Δ with hα
  set β : ℂ := (w / 2 - e : ℝ) + I * Δ with hβ
  have rα : α.re = -(w / 2) - e := by simp [hα]
  have rβ : β.re = w / 2 - e := by simp [hβ]
  have g : ∀ ν : ℝ, propRA 1 p H ν = 1 / ((ν : ℂ) - e + I * Δ) := by
    intro ν
    rw [propRA_eq (.inl rfl), ← he, ← hΔ]
    push_cast; ring
  have s : ∀ ν : ℝ, singleR p H ν = -(I / 2) * (1 / ((ν : ℂ) - e + I * Δ) * (1 / ((ν : ℂ) - e + I * Δ))) := by
    intro ν
    have := g ν
    rw [propRA, if_pos rfl] at this
    rw [singleR, Propagator.sR2, this]
    ring
  have ua := upper_diff (a := vmax) (α := α) (β := β) (by rw [rα]; linarith) (by rw [rβ]; linarith)
  have la := upper_diff (a := -vmin) (α := -α) (β := -β) (by rw [neg_re, rα]; linarith) (by rw [neg_re, rβ]; linarith)
  have ua' := ua.const_mul (-(I / 2))
  have la' := la.const_mul (I / 2)
  simp only [← intervalIntegral.integral_const_mul] at ua' la'
  have key := isTail_of (vmin := vmin) (vmax := vmax)
    (f := fun v => propRA 1 p H (v - w / 2) * singleR p H (v + w / 2) + singleR p H (v - w / 2) * propRA 1 p H (v + w / 2))
    (fun v hv => ?_) (fun v hv => ?_) ua' la'
  · convert key using 1
    have n1 : (vmin : ℂ) + α ≠ 0 := fun h => by
      have := congrArg Complex.re h
      rw [add_re, rα, ofReal_re, zero_re] at this; linarith
    have n2 : (vmin : ℂ) + β ≠ 0 := fun h => by
      have := congrArg Complex.re h
      rw [add_re, rβ, ofReal_re, zero_re] at this; linarith
    have e1 : ((vmin - w / 2 - e : ℝ) : ℂ) + I * Δ = vmin + α := by rw [hα]; push_cast; ring
    have e2 : ((vmin + w / 2 - e : ℝ) : ℂ) + I * Δ = vmin + β := by rw [hβ]; push_cast; ring
    have e3 : ((vmax - w / 2 - e : ℝ) : ℂ) + I * Δ = vmax + α := by rw [hα]; push_cast; ring
    have e4 : ((vmax + w / 2 - e : ℝ) : ℂ) + I * Δ = vmax + β := by rw [hβ]; push_cast; ring
    rw [e1, e2, e3, e4]
    have e5 : (((-vmin : ℝ) : ℂ) + -α) * (((-vmin : ℝ) : ℂ) + -β) = (vmin + α) * (vmin + β) := by push_cast; ring
    rw [e5]; ring
  · rw [g, g, s, s]
    have e1 : (((v - w / 2 : ℝ)) : ℂ) - e + I * Δ = v + α := by rw [hα]; push_cast; ring
    have e2 : (((v + w / 2 : ℝ)) : ℂ) - e + I * Δ = v + β := by rw [hβ]; push_cast; ring
    rw [e1, e2]
    simp only [one_div, mul_inv, sq]; ring
  · rw [g, g, s, s]
    have e1 : (((-v - w / 2 : ℝ)) : ℂ) - e + I * Δ = -(v + -α) := by rw [hα]; push_cast; ring
    have e2 : (((-v + w / 2 : ℝ)) : ℂ) - e + I * Δ = -(v + -β) := by rw [hβ]; push_cast; ring
    rw [e1, e2]
    simp only [one_div, mul_inv, sq, inv_neg]; ring

/-- C98 is false of the differentiated bubble at real frequencies: whatever the arguments, nothing is added for the
frequencies outside of the box, although they contribute. -/
theorem c98_keldysh_diff_refuted :
    (∀ (w vmin vmax : ℝ) (eps : ℂ) (Δ η₁ η₂ : ℝ), atKeldysh w vmin vmax eps Δ η₁ η₂ true = 0 ∧
      pKeldysh w vmin vmax eps Δ η₁ η₂ true = 0) ∧
    ∀ (p : Propagator.Par) (H vmax : ℝ), p.eps + H = 0 → 0 < p.Gam + p.Lam → 0 < vmax → ∃ x : ℝ, x < 0 ∧
      IsTail (fun v => propRA 1 p H v * singleR p H v + singleR p H v * propRA 1 p H v) (-vmax) vmax x := by
  refine ⟨fun w vmin vmax eps Δ η₁ η₂ => ⟨by simp [atKeldysh], by simp [pKeldysh]⟩, fun p H a h0 h1 h2 => ?_⟩
  set Δ := (p.Gam + p.Lam) / 2 with hΔ
  have dpos : 0 < Δ := by rw [hΔ]; linarith
  refine ⟨-(2 * a * Δ / (a ^ 2 + Δ ^ 2) ^ 2), ?_, ?_⟩
  · have : 0 < 2 * a * Δ / (a ^ 2 + Δ ^ 2) ^ 2 := by positivity
    linarith
  · have key := tail_retarded_diff p H 0 (-a) a (by rw [h0]; simpa using h2) (by rw [h0]; simpa using h2)
    simp only [zero_div, sub_zero, add_zero, h0, ← hΔ] at key
    convert key using 1
    have q : ((a : ℂ) ^ 2 + (Δ : ℂ) ^ 2) ≠ 0 := by
      have : (a ^ 2 + Δ ^ 2 : ℝ) ≠ 0 := by positivity
      exact_mod_cast this
    have f : ((a : ℂ) + I * Δ) * ((-a : ℂ) + I * Δ) = -(a ^ 2 + Δ ^ 2) := by
      linear_combination (Δ : ℂ) ^ 2 * I_sq
    have n1 : ((a : ℂ) + I * Δ) ≠ 0 := fun h => by rw [h, zero_mul] at f; exact q (by linear_combination f)
    have n2 : ((-a : ℂ) + I * Δ) ≠ 0 := fun h => by rw [h, mul_zero] at f; exact q (by linear_combination f)
    have d : (1 / (((-a : ℂ) + I * Δ) * ((-a : ℂ) + I * Δ)) - 1 / (((a : ℂ) + I * Δ) * ((a : ℂ) + I * Δ))) =
        4 * a * I * Δ / (a ^ 2 + Δ ^ 2) ^ 2 := by
      rw [← neg_sq ((a : ℂ) ^ 2 + (Δ : ℂ) ^ 2), ← f]
      field_simp
      ring
    push_cast
    rw [d]
    linear_combination (-(2 * a * Δ / ((a : ℂ) ^ 2 + (Δ : ℂ) ^ 2) ^ 2)) * I_sq

end Verif.Tails
