import Verif.Propagator.Lemmas
import Mathlib.Tactic.NormNum

/-! C64–C66: fluctuation-dissipation relation, causality, and the regulator derivative. -/
namespace Verif.Propagator
open Complex

/-! ### C64 -/

/-- **C64** (equilibrium formulas).  The Keldysh components are the distribution factor times the
difference of the retarded and the advanced component, for every regulator. -/
theorem c64_equilibrium (r : Reg) (F : ℝ) (p : Par) (s : SE) :
    gKeq r F p s = F * (gR r p s - (starRingEnd ℂ) (gR r p s)) ∧
    sKeq r F p s = F * (sR r p s - (starRingEnd ℂ) (sR r p s)) := by
  constructor
  · rw [sub_conj', gKeq]; push_cast; ring
  · rw [sub_conj', sKeq]; push_cast; ring

/-- **C64** (the general formula reduces to the equilibrium one).  For the hybridisation regulator: if the
self-energy obeys the relation, the non-equilibrium formulas for `G^K` and `S^K` give the equilibrium
values, whatever the parameters. -/
theorem c64_general_reduces (F : ℝ) (p : Par) (s : SE) (hF : s.K = F * (s.R - (starRingEnd ℂ) s.R)) :
    gKgen .hyb F p s = F * (gR .hyb p s - (starRingEnd ℂ) (gR .hyb p s)) ∧
    sKgen .hyb F p s = F * (sR .hyb p s - (starRingEnd ℂ) (sR .hyb p s)) := by
  rw [sub_conj'] at hF
  rw [sub_conj', sub_conj']
  set G := gR2 p s with hG
  have him : G.im = normSq G * (s.R.im - (p.Gam + p.Lam) / 2) := by
    rw [hG, gR2_eq, one_div, inv_im, normSq_inv]
    simp
    ring
  constructor
  · simp only [gKgen, gR, ← hG, hF]
    rw [him]; push_cast; ring
  · have hs : (sR .hyb p s).im = -(1/2) * (G.re * G.re - G.im * G.im) := by
      simp only [sR, sR2, ← hG]; norm_num; ring
    simp only [sKgen, gR, ← hG, hF, hs]
    have hn : normSq G = G.re * G.re + G.im * G.im := normSq_apply G
    have key : normSq G * G.im * s.R.im * 2 - normSq G * (1 + (p.Gam + p.Lam) * G.im)
        = -(G.re * G.re - G.im * G.im) := by
      have : normSq G * (s.R.im * 2 - (p.Gam + p.Lam)) = 2 * G.im := by rw [him]; ring
      have h2 : normSq G * G.im * s.R.im * 2 - normSq G * ((p.Gam + p.Lam) * G.im) = 2 * G.im * G.im := by
        linear_combination G.im * this
      linear_combination h2 - hn
    have key' : ((normSq G * G.im * s.R.im * 2 - normSq G * (1 + (p.Gam + p.Lam) * G.im) : ℝ) : ℂ)
        = (-(G.re * G.re - G.im * G.im) : ℝ) := by rw [key]
    push_cast at key' ⊢
    linear_combination (F * I : ℂ) * key'

/-- **C64** (temperature flow).  If the self-energy obeys the relation at the temperature `Lambda`, so does
the propagator. -/
theorem c64_temperature_flow (p : Par) (s : SE)
    (hF : s.K = fermiFac p.v p.mu p.Lam * (s.R - (starRingEnd ℂ) s.R)) :
    gK5 p s = fermiFac p.v p.mu p.Lam * (gR .temp p s - (starRingEnd ℂ) (gR .temp p s)) := by
  rw [sub_conj'] at hF
  rw [sub_conj']
  set G := gR5 p s with hG
  have him : G.im = normSq G * (s.R.im - p.Gam / 2) := by
    rw [hG, gR5, g0Rinv, one_div, inv_im, normSq_inv]
    simp; norm_num
    ring
  simp only [gK5, gR, ← hG, hF]
  rw [him]; push_cast; ring

/-- **C64** is false of the general formula for the frequency regulator: it keeps the term `Γ + Λ` of the
hybridisation regulator, and a self-energy that vanishes (and so obeys the relation) gives a Keldysh
component that violates it. -/
theorem c64_general_frequency_regulator_refuted :
    ∃ (F : ℝ) (p : Par) (s : SE), s.K = F * (s.R - (starRingEnd ℂ) s.R) ∧ p.v ≠ 0 ∧ 0 < p.Lam ∧ 0 < p.Gam ∧
      gKgen .freq F p s ≠ F * (gR .freq p s - (starRingEnd ℂ) (gR .freq p s)) := by
  refine ⟨1, ⟨1, 0, 1, 1, 0, 1⟩, ⟨0, 0, 0⟩, by simp, by norm_num, by norm_num, by norm_num, ?_⟩
  have hG : gR .freq ⟨1, 0, 1, 1, 0, 1⟩ ⟨0, 0, 0⟩ = ⟨1/5, -3/5⟩ := by
    have h1 : (1 + I : ℂ) ≠ 0 := by intro h; have := congrArg re h; norm_num at this
    have h2 : (1 + I * (1/2) : ℂ) ≠ 0 := by intro h; have := congrArg re h; norm_num at this
    simp only [gR, gR3, g0Rinv]
    norm_num
    rw [div_eq_iff h2, inv_eq_one_div, div_eq_iff h1]
    apply Complex.ext <;> norm_num
  rw [sub_conj', gKgen, hG]
  intro h
  have := congrArg im h
  norm_num [normSq_apply] at this

/-! ### C65 -/

/-- **C65**.  A causal self-energy and a positive hybridisation plus regulator give a finite retarded
propagator (the denominator does not vanish) with strictly negative imaginary part, at every
frequency. -/
theorem c65_causal (p : Par) (s : SE) (hs : s.R.im ≤ 0) (hpos : 0 < p.Gam + p.Lam) :
    g0Rinv p + I * p.Lam * 0.5 - s.R ≠ 0 ∧ (gR .hyb p s).im < 0 := by
  have hz : 0 < (g0Rinv p + I * p.Lam * 0.5 - s.R).im := by
    simp [g0Rinv]; norm_num; linarith
  have hne : g0Rinv p + I * p.Lam * 0.5 - s.R ≠ 0 := by
    intro h; rw [h] at hz; simp at hz
  refine ⟨hne, ?_⟩
  show (gR2 p s).im < 0
  rw [gR2, one_div, inv_im]
  exact div_neg_of_neg_of_pos (by linarith) (normSq_pos.mpr hne)

/-- **C65** (interaction and temperature flow).  The same for the interaction regulator with real constant
part and positive flow parameter, and for the temperature flow. -/
theorem c65_causal_other (p : Par) (s : SE) (hs : s.R.im ≤ 0) (hpos : 0 < p.Gam) :
    (s.asymp.im = 0 → 0 < p.Lam → (gR .inter p s).im < 0) ∧ (gR .temp p s).im < 0 := by
  constructor
  · intro ha hL
    have hz : 0 < (g0Rinv p - s.asymp - p.Lam * (s.R - s.asymp)).im := by
      have : p.Lam * s.R.im ≤ 0 := mul_nonpos_of_nonneg_of_nonpos hL.le hs
      simp [g0Rinv, ha]; norm_num; linarith
    have hne : g0Rinv p - s.asymp - p.Lam * (s.R - s.asymp) ≠ 0 := by
      intro h; rw [h] at hz; simp at hz
    show (gR4 p s).im < 0
    rw [gR4, div_eq_mul_inv, im_ofReal_mul]
    rw [inv_im]
    exact mul_neg_of_pos_of_neg hL (div_neg_of_neg_of_pos (by linarith) (normSq_pos.mpr hne))
  · have hz : 0 < (g0Rinv p - s.R).im := by
      simp [g0Rinv]; norm_num; linarith
    have hne : g0Rinv p - s.R ≠ 0 := by
      intro h; rw [h] at hz; simp at hz
    show (gR5 p s).im < 0
    rw [gR5, one_div, inv_im]
    exact div_neg_of_neg_of_pos (by linarith) (normSq_pos.mpr hne)

/-- **C65** (frequency regulator at the particle-hole symmetric level position). -/
theorem c65_causal_frequency_partial (p : Par) (s : SE) (hs : s.R.im ≤ 0) (he : p.eps = 0) (hv : p.v ≠ 0)
    (hG : 0 < p.Gam) (hL : 0 ≤ p.Lam) : (gR .freq p s).im < 0 := by
  have hvc : (p.v : ℂ) ≠ 0 := by exact_mod_cast hv
  have hd : (p.v + I * p.Lam : ℂ) ≠ 0 := by
    intro h; have := congrArg re h; simp at this; exact hv this
  set D : ℂ := (p.v + I * p.Lam) / p.v * g0Rinv p - s.R with hD
  have hz : 0 < D.im := by
    have h1 : ((p.v + I * p.Lam) / p.v : ℂ) = 1 + I * (p.Lam / p.v : ℝ) := by
      push_cast; field_simp
    have h2 : D.im = p.Gam / 2 + p.Lam - s.R.im := by
      rw [hD, h1]; simp [g0Rinv, he]; norm_num
      have : p.Lam / p.v * p.v = p.Lam := div_mul_cancel₀ _ hv
      linarith
    rw [h2]; linarith
  have hne : D ≠ 0 := by intro h; rw [h] at hz; simp at hz
  have hGe : gR .freq p s = 1 / D := by
    show gR3 p s = _
    unfold gR3
    have e : g0Rinv p - p.v / (p.v + I * p.Lam) * s.R = p.v / (p.v + I * p.Lam) * D := by
      rw [hD]; field_simp
    simp only []
    rw [e]
    have : (p.v / (p.v + I * p.Lam) : ℂ) ≠ 0 := div_ne_zero hvc hd
    field_simp
  rw [hGe, one_div, inv_im]
  exact div_neg_of_neg_of_pos (by linarith) (normSq_pos.mpr hne)

/-- **C65** is false of the frequency regulator away from the symmetric level position: even without
self-energy the imaginary part of the regulated retarded propagator can be positive. -/
theorem c65_frequency_regulator_refuted :
    ∃ (p : Par) (s : SE), s.R.im ≤ 0 ∧ 0 < p.Gam ∧ 0 < p.Lam ∧ p.v ≠ 0 ∧ 0 < (gR .freq p s).im := by
  refine ⟨⟨1, 2, 1, 1, 0, 1⟩, ⟨0, 0, 0⟩, by simp, by norm_num, by norm_num, by norm_num, ?_⟩
  have hG : gR .freq ⟨1, 2, 1, 1, 0, 1⟩ ⟨0, 0, 0⟩ = ⟨-3/5, 1/5⟩ := by
    have h1 : (1 + I : ℂ) ≠ 0 := by intro h; have := congrArg re h; norm_num at this
    have h2 : (-1 + I * (1/2) : ℂ) ≠ 0 := by intro h; have := congrArg re h; norm_num at this
    simp only [gR, gR3, g0Rinv]
    norm_num
    rw [div_eq_iff h2, inv_eq_one_div, div_eq_iff h1]
    apply Complex.ext <;> norm_num
  rw [hG]; norm_num

/-- A concrete causal case. -/
example : (gR .hyb ⟨1, 1/3, 1/2, 1, 0, -2⟩ ⟨⟨1, -1⟩, 0, 0⟩).im < 0 :=
  (c65_causal _ _ (by norm_num) (by norm_num)).2
example : (gR .temp ⟨1, 1/3, 1/2, 1, 0, -2⟩ ⟨⟨1, -1⟩, 0, 0⟩).im < 0 :=
  (c65_causal_other _ _ (by norm_num) (by norm_num)).2
example : (gR .freq ⟨1, 0, 1/2, 1, 0, -2⟩ ⟨⟨1, -1⟩, 0, 0⟩).im < 0 :=
  c65_causal_frequency_partial _ _ (by norm_num) rfl (by norm_num) (by norm_num) (by norm_num)
/-- A self-energy obeying the relation of C64 that is not zero. -/
example : ∃ s : SE, s.R ≠ 0 ∧ s.K ≠ 0 ∧ s.K = (1/2 : ℝ) * (s.R - (starRingEnd ℂ) s.R) :=
  ⟨⟨-I, -I, 0⟩, by simp, by simp, by apply Complex.ext <;> norm_num⟩

end Verif.Propagator
