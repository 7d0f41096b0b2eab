import Verif.Propagator.Lemmas
import Mathlib.Tactic.NormNum

/-! C66: the single-scale propagator is the derivative of the propagator with respect to the flow
parameter at fixed self-energy, and with the Katanin term the total derivative along a flowing
self-energy.  `σ` is the self-energy as a function of the flow parameter and `ds` its derivative. -/
namespace Verif.Propagator
open Complex

/-- The parameters at the flow parameter `L`. -/
def Par.at (p : Par) (L : ℝ) : Par := { p with Lam := L }

@[simp] theorem Par.at_Lam (p : Par) (L : ℝ) : (p.at L).Lam = L := rfl
@[simp] theorem Par.at_v (p : Par) (L : ℝ) : (p.at L).v = p.v := rfl
@[simp] theorem Par.at_Gam (p : Par) (L : ℝ) : (p.at L).Gam = p.Gam := rfl
@[simp] theorem Par.at_mu (p : Par) (L : ℝ) : (p.at L).mu = p.mu := rfl
@[simp] theorem g0Rinv_at (p : Par) (L : ℝ) : g0Rinv (p.at L) = g0Rinv p := rfl
@[simp] theorem g0Minv_at (b : Bool) (c : ℝ) (p : Par) (L : ℝ) : g0Minv b c (p.at L) = g0Minv b c p := rfl

/-- Where the retarded propagator at the parameters and self-energy is regular. -/
def RegularR : Reg → Par → SE → Prop
  | .hyb, p, s => g0Rinv p + I * p.Lam * 0.5 - s.R ≠ 0
  | .freq, p, s => p.v = 0 ∨ (1 / 10 ^ 18 ≤ |p.v| ∧ g0Rinv p - p.v / (p.v + I * p.Lam) * s.R ≠ 0)
  | .inter, p, s => g0Rinv p - s.asymp - p.Lam * (s.R - s.asymp) ≠ 0
  | .temp, p, s => g0Rinv p - s.R ≠ 0

/-- **C66** (retarded component, all regulators).  `S^R + G^R (dΣ^R) G^R` is the derivative of the
retarded propagator with respect to the flow parameter along every differentiable self-energy, provided
the constant part of the self-energy does not flow (used by the interaction regulator only). -/
theorem c66_retarded (r : Reg) (p : Par) (σ : ℝ → SE) (ds : SE) (L : ℝ)
    (hR : HasDerivAt (fun l => (σ l).R) ds.R L)
    (ha : r = .inter → ∀ l, (σ l).asymp = (σ L).asymp)
    (hreg : RegularR r (p.at L) (σ L)) :
    HasDerivAt (fun l => gR r (p.at l) (σ l)) (sR r (p.at L) (σ L) + katR r (p.at L) (σ L) ds) L := by
  have hL := hasDerivAt_ofReal L
  cases r with
  | hyb =>
    have hD : HasDerivAt (fun l : ℝ => g0Rinv p + I * (l : ℂ) * 0.5 - (σ l).R) (I * 1 * 0.5 - ds.R) L :=
      (((hL.const_mul I).mul_const 0.5).const_add (g0Rinv p)).sub hR
    refine (hasDerivAt_one_div hD hreg).congr_deriv ?_
    simp only [sR, sR2, katR, gR, gR2, Par.at_Lam, g0Rinv_at]
    norm_num; ring
  | freq =>
    rcases hreg with h0 | ⟨h1, hne⟩
    · simp only [Par.at_v] at h0
      have e : (fun l => gR .freq (p.at l) (σ l)) = fun _ => 0 := by
        funext l; simp [gR, gR3, h0]
      rw [e]
      refine (hasDerivAt_const L (0:ℂ)).congr_deriv ?_
      simp [sR, sR3, katR, gR, gR3, h0]
    · simp only [Par.at_v, Par.at_Lam, g0Rinv_at] at h1 hne
      have hv : p.v ≠ 0 := by
        intro h; rw [h, abs_zero] at h1; norm_num at h1
      have hvc : (p.v : ℂ) ≠ 0 := by exact_mod_cast hv
      have hd : ∀ l : ℝ, (p.v + I * l : ℂ) ≠ 0 := by
        intro l h; have := congrArg re h; simp at this; exact hv this
      have hg : ∀ l : ℝ, gR3 (p.at l) (σ l) = 1 / ((p.v + I * l) / p.v * g0Rinv p - (σ l).R) := by
        intro l
        have hdl := hd l
        have e : g0Rinv p - p.v / (p.v + I * l) * (σ l).R
            = p.v / (p.v + I * l) * ((p.v + I * l) / p.v * g0Rinv p - (σ l).R) := by field_simp
        unfold gR3
        simp only [Par.at_v, Par.at_Lam, g0Rinv_at]
        rw [e]
        have : (p.v / (p.v + I * l) : ℂ) ≠ 0 := div_ne_zero hvc hdl
        rw [div_mul_eq_div_div, div_self this]
      have hD : HasDerivAt (fun l : ℝ => (p.v + I * (l:ℂ)) / p.v * g0Rinv p - (σ l).R)
          (I * 1 / p.v * g0Rinv p - ds.R) L :=
        ((((hL.const_mul I).const_add (p.v:ℂ)).div_const _).mul_const _).sub hR
      have hne' : (p.v + I * (L:ℂ)) / p.v * g0Rinv p - (σ L).R ≠ 0 := by
        intro h
        apply hne
        have hdl := hd L
        have e : g0Rinv p - p.v / (p.v + I * L) * (σ L).R
            = p.v / (p.v + I * L) * ((p.v + I * L) / p.v * g0Rinv p - (σ L).R) := by field_simp
        rw [e, h, mul_zero]
      have e : (fun l => gR .freq (p.at l) (σ l)) =
          fun l : ℝ => 1 / ((p.v + I * (l:ℂ)) / p.v * g0Rinv p - (σ l).R) := by
        funext l; exact hg l
      rw [e]
      refine (hasDerivAt_one_div hD hne').congr_deriv ?_
      simp only [sR, sR3, katR, gR, hg, Par.at_v, g0Rinv_at]
      rw [if_neg (by exact not_lt.mpr h1)]
      ring
  | inter =>
    have ha' := ha rfl
    have e : (fun l => gR .inter (p.at l) (σ l)) =
        fun l : ℝ => (l:ℂ) * (1 / (g0Rinv p - (σ L).asymp - l * ((σ l).R - (σ L).asymp))) := by
      funext l
      simp only [gR, gR4, Par.at_Lam, g0Rinv_at, ha' l, mul_one_div]
    rw [e]
    have hD : HasDerivAt (fun l : ℝ => g0Rinv p - (σ L).asymp - (l:ℂ) * ((σ l).R - (σ L).asymp))
        (-(1 * ((σ L).R - (σ L).asymp) + L * ds.R)) L :=
      (hL.mul (hR.sub_const _)).const_sub _
    have hne : g0Rinv p - (σ L).asymp - (L:ℂ) * ((σ L).R - (σ L).asymp) ≠ 0 := hreg
    refine (hL.mul (hasDerivAt_one_div hD hne)).congr_deriv ?_
    simp only [sR, sR4, katR, gR, gR4, Par.at_Lam, g0Rinv_at]
    field_simp
    ring
  | temp =>
    have hD : HasDerivAt (fun l : ℝ => g0Rinv p - (σ l).R) (-ds.R) L := hR.const_sub _
    refine (hasDerivAt_one_div hD hreg).congr_deriv ?_
    simp only [sR, sR5, katR, gR, gR5, g0Rinv_at]
    ring

/-- **C66** (fixed self-energy): the single-scale propagator is the partial derivative. -/
theorem c66_single_scale (r : Reg) (p : Par) (s : SE) (L : ℝ) (hreg : RegularR r (p.at L) s) :
    HasDerivAt (fun l => gR r (p.at l) s) (sR r (p.at L) s) L := by
  have := c66_retarded r p (fun _ => s) ⟨0, 0, 0⟩ L (hasDerivAt_const L s.R) (fun _ _ => rfl) hreg
  simpa [katR] using this

/-- **C66** (Keldysh component, equilibrium formula).  If the derivative of the self-energy obeys the
fluctuation-dissipation relation with the fixed factor `F`, then `S^K` plus the Katanin term is the
derivative of `G^K`. -/
theorem c66_keldysh_equilibrium (r : Reg) (F : ℝ) (p : Par) (σ : ℝ → SE) (ds : SE) (L : ℝ)
    (hR : HasDerivAt (fun l => (σ l).R) ds.R L)
    (ha : r = .inter → ∀ l, (σ l).asymp = (σ L).asymp)
    (hreg : RegularR r (p.at L) (σ L))
    (hF : ds.K = F * (ds.R - (starRingEnd ℂ) ds.R)) :
    HasDerivAt (fun l => gKeq r F (p.at l) (σ l))
      (sKeq r F (p.at L) (σ L) + katK r (gKeq r F (p.at L) (σ L)) (p.at L) (σ L) ds) L := by
  have h := c66_retarded r p σ ds L hR ha hreg
  have e : ∀ p s, gKeq r F p s = F * (gR r p s - (starRingEnd ℂ) (gR r p s)) := by
    intro p s; rw [sub_conj', gKeq]; push_cast; ring
  have e' : ∀ p s, sKeq r F p s = F * (sR r p s - (starRingEnd ℂ) (sR r p s)) := by
    intro p s; rw [sub_conj', sKeq]; push_cast; ring
  simp only [e, e']
  refine ((h.sub (hasDerivAt_conj h)).const_mul (F:ℂ)).congr_deriv ?_
  simp only [katK, katR, map_add, map_mul, hF]
  ring

/-- **C66** (Keldysh component, general formula, hybridisation regulator): for every self-energy flow,
with or without the fluctuation-dissipation relation. -/
theorem c66_keldysh_general (F : ℝ) (p : Par) (σ : ℝ → SE) (ds : SE) (L : ℝ)
    (hR : HasDerivAt (fun l => (σ l).R) ds.R L) (hK : HasDerivAt (fun l => (σ l).K) ds.K L)
    (hreg : RegularR .hyb (p.at L) (σ L)) :
    HasDerivAt (fun l => gKgen .hyb F (p.at l) (σ l))
      (sKgen .hyb F (p.at L) (σ L) + katK .hyb (gKgen .hyb F (p.at L) (σ L)) (p.at L) (σ L) ds) L := by
  have h := c66_retarded .hyb p σ ds L hR (fun h => by cases h) hreg
  have hn := hasDerivAt_normSq h
  have hL := hasDerivAt_ofReal L
  have h2 : HasDerivAt (fun l : ℝ => (σ l).K - I * (((p.Gam + l) * F : ℝ) : ℂ)) (ds.K - I * F) L := by
    have : HasDerivAt (fun l : ℝ => I * (((p.Gam + l) * F : ℝ) : ℂ)) (I * F) L := by
      have := ((hL.const_add (p.Gam : ℂ)).mul_const (F:ℂ)).const_mul I
      simpa using this
    exact hK.sub this
  refine (hn.mul h2).congr_deriv ?_
  set G := gR .hyb (p.at L) (σ L) with hG
  have hs : sR .hyb (p.at L) (σ L) = -0.5 * I * G * G := rfl
  have hnn : ((normSq G : ℝ) : ℂ) = G * (starRingEnd ℂ) G := (mul_conj G).symm
  have hi : ((G.im : ℝ) : ℂ) = -0.5 * I * (G - (starRingEnd ℂ) G) := by
    rw [sub_conj']; push_cast; norm_num
    linear_combination ((G.im:ℂ)) * I_sq
  have hs' : (starRingEnd ℂ) (-0.5 * I * G * G) = 0.5 * I * (starRingEnd ℂ) G * (starRingEnd ℂ) G := by
    rw [map_mul, map_mul, map_mul, conj_I]
    have : (starRingEnd ℂ) (-0.5 : ℂ) = -0.5 := by
      apply Complex.ext <;> norm_num
    rw [this]; try ring
  simp only [katK, katR, sKgen, gKgen, ← hG, hs, map_add, hs', Par.at_Gam, Par.at_Lam]
  push_cast
  rw [hnn, hi]
  simp only [map_mul, conj_conj]
  have hI := I_sq
  norm_num
  ring_nf

/-- **C66** (temperature flow at zero chemical potential): the Keldysh component. -/
theorem c66_keldysh_temperature (p : Par) (σ : ℝ → SE) (ds : SE) (L : ℝ) (hL0 : L ≠ 0) (hmu : p.mu = 0)
    (hR : HasDerivAt (fun l => (σ l).R) ds.R L) (hK : HasDerivAt (fun l => (σ l).K) ds.K L)
    (hreg : RegularR .temp (p.at L) (σ L)) :
    HasDerivAt (fun l => gK5 (p.at l) (σ l))
      (sK5 (p.at L) (σ L) + katK .temp (gK5 (p.at L) (σ L)) (p.at L) (σ L) ds) L := by
  have h := c66_retarded .temp p σ ds L hR (fun h => by cases h) hreg
  have hn := hasDerivAt_normSq h
  have ht : HasDerivAt (fun l : ℝ => Real.tanh (p.v / (2 * l)))
      (1 / Real.cosh (p.v / (2 * L)) ^ 2 * (-(p.v * 2) / (2 * L) ^ 2)) L := by
    have h2 : HasDerivAt (fun l : ℝ => p.v / (2 * l)) (-(p.v * 2) / (2 * L) ^ 2) L := by
      have := (hasDerivAt_const L p.v).div ((hasDerivAt_id L).const_mul 2) (by simpa using hL0)
      refine this.congr_deriv ?_
      simp
    exact (hasDerivAt_tanh _).comp L h2
  have htc := ht.ofReal_comp
  have h3 := (hK.sub (htc.const_mul (I * p.Gam))).mul hn
  have e : (fun l => gK5 (p.at l) (σ l)) = fun l => ((σ l).K - I * p.Gam * (Real.tanh (p.v / (2 * l)) : ℝ)) *
      (normSq (gR .temp (p.at l) (σ l)) : ℝ) := by
    funext l; simp [gK5, fermiFac, hmu, gR]
  rw [e]
  refine h3.congr_deriv ?_
  set G := gR .temp (p.at L) (σ L) with hG
  have hnn : ((normSq G : ℝ) : ℂ) = G * (starRingEnd ℂ) G := (mul_conj G).symm
  have hs : sR .temp (p.at L) (σ L) = 0 := rfl
  have hG5 : gR5 (p.at L) (σ L) = G := rfl
  have hc : (Real.cosh (p.v / (2 * L)) : ℂ) ≠ 0 := by exact_mod_cast (Real.cosh_pos _).ne'
  have hLc : (L : ℂ) ≠ 0 := by exact_mod_cast hL0
  simp only [katK, katR, sK5, gK5, hG5, ← hG, hs, fermiFac, Par.at_Gam, Par.at_Lam, Par.at_v, Par.at_mu, hmu,
    sub_zero]
  push_cast at hc ⊢
  rw [hnn]
  simp only [map_mul, map_add, map_zero]
  generalize Complex.cosh (p.v / (2 * L)) = c at hc ⊢
  norm_num
  field_simp
  ring

/-- **C66** (temperature flow): the derivative of the Keldysh self-energy obtained from the
fluctuation-dissipation relation. -/
theorem c66_selfenergy_temperature (p : Par) (σ : ℝ → SE) (ds : SE) (L : ℝ) (hL0 : L ≠ 0)
    (hR : HasDerivAt (fun l => (σ l).R) ds.R L) :
    HasDerivAt (fun l => (Real.tanh (p.v / (2 * l)) : ℂ) * ((σ l).R - (starRingEnd ℂ) (σ l).R))
      (diffSigmaK5 (p.at L) (σ L) ds) L := by
  have ht : HasDerivAt (fun l : ℝ => Real.tanh (p.v / (2 * l)))
      (1 / Real.cosh (p.v / (2 * L)) ^ 2 * (-(p.v * 2) / (2 * L) ^ 2)) L := by
    have h2 : HasDerivAt (fun l : ℝ => p.v / (2 * l)) (-(p.v * 2) / (2 * L) ^ 2) L := by
      have := (hasDerivAt_const L p.v).div ((hasDerivAt_id L).const_mul 2) (by simpa using hL0)
      refine this.congr_deriv ?_
      simp
    exact (hasDerivAt_tanh _).comp L h2
  have htc := ht.ofReal_comp
  have hd : HasDerivAt (fun l => (σ l).R - (starRingEnd ℂ) (σ l).R) (ds.R - (starRingEnd ℂ) ds.R) L :=
    hR.sub (hasDerivAt_conj hR)
  refine (htc.mul hd).congr_deriv ?_
  have hc : (Real.cosh (p.v / (2 * L)) : ℂ) ≠ 0 := by exact_mod_cast (Real.cosh_pos _).ne'
  have hLc : (L : ℂ) ≠ 0 := by exact_mod_cast hL0
  simp only [diffSigmaK5, Par.at_Lam, Par.at_v]
  rw [sub_conj', sub_conj']
  push_cast at hc ⊢
  generalize Complex.cosh (p.v / (2 * L)) = c at hc ⊢
  generalize Complex.tanh (p.v / (2 * L)) = t
  field_simp

/-- **C66** (Matsubara propagators, all regulators). -/
theorem c66_matsubara (phs : Bool) (c : ℝ) (p : Par) (σ : ℝ → ℂ) (dS : ℂ) (L : ℝ)
    (hS : HasDerivAt σ dS L) :
    ((if phs then g0Minv phs c p + (L * 0.5 * sign p.v : ℝ) - σ L
        else g0Minv phs c p + I * L * 0.5 * (sign p.v : ℝ) - σ L) ≠ 0 →
      HasDerivAt (fun l => gM2 phs c (p.at l) (σ l))
        (sM2 phs c (p.at L) (σ L) + gM2 phs c (p.at L) (σ L) * dS * gM2 phs c (p.at L) (σ L)) L) ∧
    (p.v ≠ 0 → g0Minv phs c p * ((p.v * p.v + L * L) / (p.v * p.v) : ℝ) - σ L ≠ 0 →
      HasDerivAt (fun l => gM3 phs c (p.at l) (σ l))
        (sM3 phs c (p.at L) (σ L) + gM3 phs c (p.at L) (σ L) * dS * gM3 phs c (p.at L) (σ L)) L) ∧
    (g0Minv phs c p - L * σ L ≠ 0 →
      HasDerivAt (fun l => gM4 phs c (p.at l) (σ l))
        (sM4 phs c (p.at L) (σ L) + gM4 phs c (p.at L) (σ L) * dS * gM4 phs c (p.at L) (σ L)) L) := by
  have hL := hasDerivAt_ofReal L
  refine ⟨fun hne => ?_, fun hv hne => ?_, fun hne => ?_⟩
  · cases phs with
    | true =>
      simp only [if_true] at hne
      have hD : HasDerivAt (fun l : ℝ => g0Minv true c p + ((l * 0.5 * sign p.v : ℝ) : ℂ) - σ l)
          ((0.5 * sign p.v : ℝ) - dS) L := by
        have h1 : HasDerivAt (fun l : ℝ => ((l * 0.5 * sign p.v : ℝ) : ℂ)) ((0.5 * sign p.v : ℝ) : ℂ) L := by
          have := (((hasDerivAt_id L).mul_const (0.5:ℝ)).mul_const (sign p.v)).ofReal_comp
          simpa using this
        exact (h1.const_add _).sub hS
      refine (hasDerivAt_one_div hD hne).congr_deriv ?_
      simp only [sM2, gM2, Par.at_Lam, Par.at_v, g0Minv_at, if_true]
      push_cast
      norm_num; ring
    | false =>
      simp only [Bool.false_eq_true, if_false] at hne
      have hD : HasDerivAt (fun l : ℝ => g0Minv false c p + I * (l:ℂ) * 0.5 * (sign p.v : ℝ) - σ l)
          (I * 1 * 0.5 * (sign p.v : ℝ) - dS) L :=
        ((((hL.const_mul I).mul_const 0.5).mul_const _).const_add _).sub hS
      refine (hasDerivAt_one_div hD hne).congr_deriv ?_
      simp only [sM2, gM2, Par.at_Lam, Par.at_v, g0Minv_at, Bool.false_eq_true, if_false]
      norm_num; ring
  · have hvc : (p.v : ℂ) ≠ 0 := by exact_mod_cast hv
    have e : ∀ l : ℝ, gM3 phs c (p.at l) (σ l) =
        1 / (g0Minv phs c p * ((p.v * p.v + l * l) / (p.v * p.v) : ℝ) - σ l) := by
      intro l
      simp only [gM3, Par.at_v, Par.at_Lam, g0Minv_at]
      congr 2
      push_cast
      rw [div_eq_mul_inv, inv_div]
    simp only [e]
    have hD : HasDerivAt (fun l : ℝ => g0Minv phs c p * (((p.v * p.v + l * l) / (p.v * p.v) : ℝ) : ℂ) - σ l)
        (g0Minv phs c p * (2 * L / (p.v * p.v) : ℝ) - dS) L := by
      have h1 : HasDerivAt (fun l : ℝ => (p.v * p.v + l * l) / (p.v * p.v)) (2 * L / (p.v * p.v)) L := by
        have := (((hasDerivAt_id L).mul (hasDerivAt_id L)).const_add (p.v * p.v)).div_const (p.v * p.v)
        refine this.congr_deriv ?_
        simp; ring
      exact (h1.ofReal_comp.const_mul _).sub hS
    refine (hasDerivAt_one_div hD hne).congr_deriv ?_
    simp only [sM3, e, Par.at_v, Par.at_Lam, g0Minv_at]
    push_cast
    ring
  · have e : (fun l => gM4 phs c (p.at l) (σ l)) =
        fun l : ℝ => (l:ℂ) * (1 / (g0Minv phs c p - l * σ l)) := by
      funext l; simp [gM4, mul_one_div]; rfl
    rw [e]
    have hD : HasDerivAt (fun l : ℝ => g0Minv phs c p - (l:ℂ) * σ l) (-(1 * σ L + L * dS)) L :=
      (hL.mul hS).const_sub _
    refine (hL.mul (hasDerivAt_one_div hD hne)).congr_deriv ?_
    simp only [sM4, gM4, Par.at_Lam, g0Minv_at]
    field_simp
    ring

/-- **C66** is false of the interaction regulator along a flow in which the constant (Hartree) part of the
self-energy changes: the Katanin term does not contain its derivative. -/
theorem c66_interaction_hartree_refuted :
    ∃ (p : Par) (σ : ℝ → SE) (ds : SE) (L : ℝ) (d : ℂ),
      HasDerivAt (fun l => (σ l).R) ds.R L ∧ HasDerivAt (fun l => (σ l).asymp) ds.asymp L ∧
      RegularR .inter (p.at L) (σ L) ∧ HasDerivAt (fun l => gR .inter (p.at l) (σ l)) d L ∧
      d ≠ sR .inter (p.at L) (σ L) + katR .inter (p.at L) (σ L) ds := by
  have hL := hasDerivAt_ofReal (1/2)
  have hR : HasDerivAt (fun l : ℝ => (l : ℂ) - 1/2) 1 (1/2) := hL.sub_const _
  have hg : ∀ x, g0Rinv ⟨x, 0, 2, 1, 0, 0⟩ = I := by intro x; simp [g0Rinv]; norm_num; ring
  refine ⟨⟨1/2, 0, 2, 1, 0, 0⟩, fun l => ⟨(l:ℂ) - 1/2, 0, (l:ℂ) - 1/2⟩, ⟨1, 0, 1⟩, 1/2, -I - 1/2, hR, hR, ?_, ?_, ?_⟩
  · simp only [RegularR, g0Rinv_at, hg]; norm_num
  · have e : (fun l : ℝ => gR .inter ((⟨1/2, 0, 2, 1, 0, 0⟩ : Par).at l) ⟨(l:ℂ) - 1/2, 0, (l:ℂ) - 1/2⟩)
        = fun l : ℝ => (l:ℂ) * (1 / (I - ((l:ℂ) - 1/2))) := by
      funext l; simp [gR, gR4, hg, div_eq_mul_inv]
    rw [e]
    have hD : HasDerivAt (fun l : ℝ => I - ((l:ℂ) - 1/2)) (-1) (1/2) := hR.const_sub _
    refine (hL.mul (hasDerivAt_one_div hD (by norm_num))).congr_deriv ?_
    norm_num
    ring
  · simp only [sR, sR4, katR, gR, gR4, g0Rinv_at, hg, Par.at_Lam]
    intro h
    have := congrArg re h
    norm_num at this

/-- A regular point exists for each regulator, with a flowing self-energy. -/
example : ∃ (p : Par) (σ : ℝ → SE) (ds : SE), HasDerivAt (fun l => (σ l).R) ds.R 1 ∧ ds.R ≠ 0 ∧
    (∀ l, (σ l).asymp = (σ 1).asymp) ∧ ∀ r, RegularR r (p.at 1) (σ 1) := by
  refine ⟨⟨1, 0, 1, 1, 0, 1⟩, fun l => ⟨(l : ℂ) - 1, 0, 0⟩, ⟨1, 0, 0⟩, (hasDerivAt_ofReal 1).sub_const _, by simp,
    fun _ => rfl, fun r => ?_⟩
  cases r
  · intro h; have := congrArg re h; norm_num [g0Rinv, Par.at] at this
  · right
    refine ⟨by norm_num, ?_⟩
    intro h; have := congrArg re h; norm_num [g0Rinv, Par.at] at this
  · intro h; have := congrArg re h; norm_num [g0Rinv, Par.at] at this
  · intro h; have := congrArg re h; norm_num [g0Rinv, Par.at] at this

end Verif.Propagator
