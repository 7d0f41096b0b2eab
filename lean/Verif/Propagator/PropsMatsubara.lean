import Verif.Propagator.PropsDistr
import Mathlib.Tactic.FieldSimp
import Mathlib.Tactic.LinearCombination

/-
C91: propagators on the imaginary axis.  C76: distribution at zero temperature with a bias.
-/
namespace Verif.Propagator
open Complex

/-- The same parameters at the opposite frequency. -/
def Par.opposite (p : Par) : Par := { p with v := -p.v }

theorem sign_neg' (x : ℝ) : sign (-x) = - sign x := by
  simp only [sign, Left.neg_pos_iff, Left.neg_neg_iff]
  ring

theorem sign_of_pos {x : ℝ} (h : 0 < x) : sign x = 1 := by simp [sign, h, not_lt.mpr h.le]

theorem sign_of_neg {x : ℝ} (h : x < 0) : sign x = -1 := by simp [sign, h, not_lt.mpr h.le]

theorem g0_conj (c : ℝ) (p : Par) : g0Minv false c p.opposite = (starRingEnd ℂ) (g0Minv false c p) := by
  simp only [g0Minv, Par.opposite, Bool.false_eq_true, if_false, sign_neg', map_sub, map_mul, conj_I, conj_ofReal]
  push_cast
  ring

/-- **C91** (conjugation). On the imaginary axis full and single-scale propagators at the opposite frequency are the complex
conjugates, for every regulator, if the self-energy has this property. -/
theorem c91_conjugation (c : ℝ) (p : Par) (S : ℂ) :
    gM2 false c p.opposite ((starRingEnd ℂ) S) = (starRingEnd ℂ) (gM2 false c p S) ∧
    sM2 false c p.opposite ((starRingEnd ℂ) S) = (starRingEnd ℂ) (sM2 false c p S) ∧
    gM3 false c p.opposite ((starRingEnd ℂ) S) = (starRingEnd ℂ) (gM3 false c p S) ∧
    sM3 false c p.opposite ((starRingEnd ℂ) S) = (starRingEnd ℂ) (sM3 false c p S) ∧
    gM4 false c p.opposite ((starRingEnd ℂ) S) = (starRingEnd ℂ) (gM4 false c p S) ∧
    sM4 false c p.opposite ((starRingEnd ℂ) S) = (starRingEnd ℂ) (sM4 false c p S) := by
  have h0 := g0_conj c p
  have hv : p.opposite.v = -p.v := rfl
  have hL : p.opposite.Lam = p.Lam := rfl
  have h5 : (starRingEnd ℂ) (0.5 : ℂ) = 0.5 := by
    rw [show (0.5 : ℂ) = ((0.5 : ℝ) : ℂ) by push_cast; norm_num, conj_ofReal]
  have g2 : gM2 false c p.opposite ((starRingEnd ℂ) S) = (starRingEnd ℂ) (gM2 false c p S) := by
    simp only [gM2, Bool.false_eq_true, if_false, h0, hv, hL, sign_neg', map_div₀, map_one, map_sub, map_add, map_mul,
      conj_I, conj_ofReal, h5]
    congr 1
    push_cast
    ring
  have g3 : gM3 false c p.opposite ((starRingEnd ℂ) S) = (starRingEnd ℂ) (gM3 false c p S) := by
    simp only [gM3, h0, hv, hL, map_div₀, map_one, map_sub, conj_ofReal, neg_mul_neg]
  have g4 : gM4 false c p.opposite ((starRingEnd ℂ) S) = (starRingEnd ℂ) (gM4 false c p S) := by
    simp only [gM4, h0, hL, map_div₀, map_sub, map_mul, conj_ofReal]
  refine ⟨g2, ?_, g3, ?_, g4, ?_⟩
  · simp only [sM2, g2, Bool.false_eq_true, if_false, hv, sign_neg', map_mul, conj_I, conj_ofReal, map_neg, h5]
    push_cast
    ring
  · simp only [sM3, g3, h0, hv, hL, map_mul, conj_ofReal, neg_mul_neg]
  · simp only [sM4, h0, hL, map_mul, map_div₀, map_one, map_sub, conj_ofReal]

/-- **C91** (real storage). With particle-hole symmetry only imaginary parts are stored: at the symmetric level position and
for an imaginary self-energy `i s`, the complex formulas give `-i` times the stored real ones, for every regulator. -/
theorem c91_real_storage (c : ℝ) (p : Par) (s : ℝ) (he : p.eps = 0) :
    gM2 false c p (I * s) = -I * gM2 true c p s ∧ sM2 false c p (I * s) = -I * sM2 true c p s ∧
    gM3 false c p (I * s) = -I * gM3 true c p s ∧ sM3 false c p (I * s) = -I * sM3 true c p s ∧
    gM4 false c p (I * s) = -I * gM4 true c p s ∧ sM4 false c p (I * s) = -I * sM4 true c p s := by
  have h0 : g0Minv false c p = I * g0Minv true c p := by
    simp [g0Minv, he, mul_comm]
  have inv : ∀ x : ℂ, 1 / (I * x) = -I * (1 / x) := by
    intro x
    rw [one_div, mul_inv, inv_I, one_div]
  have g2 : gM2 false c p (I * s) = -I * gM2 true c p s := by
    simp only [gM2, Bool.false_eq_true, if_false, if_true, h0]
    rw [← inv]
    congr 1
    push_cast
    ring
  have g3 : gM3 false c p (I * s) = -I * gM3 true c p s := by
    simp only [gM3, h0]
    rw [← inv]
    congr 1
    ring
  have e4 : g0Minv false c p - p.Lam * (I * s) = I * (g0Minv true c p - p.Lam * s) := by rw [h0]; ring
  have g4 : gM4 false c p (I * s) = -I * gM4 true c p s := by
    simp only [gM4, e4]
    rw [div_eq_mul_one_div, inv]
    ring
  refine ⟨g2, ?_, g3, ?_, g4, ?_⟩
  · simp only [sM2, g2, Bool.false_eq_true, if_false, if_true]
    linear_combination (-(0.5 : ℂ)) * I * gM2 true c p s * gM2 true c p s * (sign p.v : ℝ) * I_sq
  · simp only [sM3, g3, h0]
    linear_combination (-(((-2 * p.Lam / (p.v * p.v) : ℝ) : ℂ)) * gM3 true c p s * g0Minv true c p * gM3 true c p s * (-I)) * I_sq
  · simp only [sM4, e4, inv]
    rw [h0]
    generalize 1 / (g0Minv true c p - ↑p.Lam * ↑s) = y
    linear_combination (g0Minv true c p * y * y * I) * I_sq

/-- **C91** (causality). With the hybridisation regulator the denominator does not vanish on the imaginary axis, and the imaginary
part of the propagator has the sign opposite to the frequency, if that of the self-energy has. -/
theorem c91_causal (c : ℝ) (p : Par) (S : ℂ) (hc : 0 < c) (hv : p.v ≠ 0) (hG : 0 ≤ p.Gam + p.Lam) (hS : S.im * p.v ≤ 0) :
    (gM2 false c p S).im * p.v < 0 := by
  set D : ℂ := g0Minv false c p + I * p.Lam * 0.5 * (sign p.v : ℝ) - S with hD
  have him : D.im = p.v * c + (p.Gam + p.Lam) / 2 * sign p.v - S.im := by
    rw [hD]
    simp [g0Minv]
    norm_num
    ring
  have hpos : 0 < D.im * p.v := by
    rw [him]
    rcases lt_or_gt_of_ne hv with h | h
    · rw [sign_of_neg h]; nlinarith [mul_pos hc (mul_pos_of_neg_of_neg h h), mul_nonneg hG (neg_nonneg.mpr h.le)]
    · rw [sign_of_pos h]; nlinarith [mul_pos hc (mul_pos h h), mul_nonneg hG h.le]
  have hne : D ≠ 0 := by
    intro h; rw [h] at hpos; simp at hpos
  have e : gM2 false c p S = 1 / D := by simp [gM2, hD]
  rw [e, one_div, inv_im]
  have hn : 0 < normSq D := normSq_pos.mpr hne
  have : -D.im / normSq D * p.v = -(D.im * p.v) / normSq D := by ring
  rw [this]
  exact div_neg_of_neg_of_pos (by linarith) hn

/-- **C91** (continuation). In the upper half-plane the propagator on the imaginary axis is the retarded one at the imaginary
argument: the same expression with `ν` replaced by `iν`. -/
theorem c91_continuation (p : Par) (S : ℂ) (hv : 0 < p.v) :
    gM2 false 1 p S = 1 / ((I * p.v - p.eps + I * p.Gam * 0.5) + I * p.Lam * 0.5 - S) := by
  simp only [gM2, g0Minv, Bool.false_eq_true, if_false, sign_of_pos hv]
  congr 1
  push_cast
  norm_num
  ring

/-- **C76** (zero temperature, bias). With a bias the factor is `-1` below both chemical potentials, `0` between them and `1`
above both. -/
theorem c76_bias (v mu V : ℝ) (hV : 0 < V) :
    effFac0 false v mu V = (if v < mu - V / 2 then -1 else if v < mu + V / 2 then 0 else 1) := by
  simp only [effFac0, fermiDistr0, Bool.false_eq_true, if_false]
  split_ifs <;> first | (exfalso; linarith) | norm_num

example : effFac0 false 0 0 1 = 0 := by rw [c76_bias _ _ _ one_pos]; norm_num

end Verif.Propagator
