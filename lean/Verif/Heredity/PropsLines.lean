import Verif.Heredity.PropsCausal

/-! C149 for the propagators of the code (hybridisation flow in equilibrium), and the whole computation of the class
`K1`. -/
namespace Verif.Heredity
open Verif.Symmetries Verif.Pipeline Verif.Reduce Verif.Propagator MeasureTheory Complex
open Verif.Freqs (Ch Fr legs)

/-- The propagator as a function of frequency, propagator.hpp:233-269 (`REG == 2`, equilibrium), for a self-energy `σ`. -/
noncomputable def lineG (p : Par) (σ : ℝ → SE) (v : ℝ) : Keldysh.Prop2 ℂ :=
  ⟨gR .hyb { p with v := v } (σ v), gKeq .hyb (effFac true v p.T p.mu 0) { p with v := v } (σ v)⟩

/-- The single-scale propagator with the Katanin extension for the derivative `dσ` of the self-energy, propagator.hpp:273-335
and 362-490 (type `k`); `dσ = 0` gives type `s`. -/
noncomputable def lineS (p : Par) (σ dσ : ℝ → SE) (v : ℝ) : Keldysh.Prop2 ℂ :=
  ⟨sR .hyb { p with v := v } (σ v) + katR .hyb { p with v := v } (σ v) (dσ v),
    sKeq .hyb (effFac true v p.T p.mu 0) { p with v := v } (σ v) +
      katK .hyb (lineG p σ v).gk { p with v := v } (σ v) (dσ v)⟩

/-- A retarded self-energy: it continues to a bounded holomorphic function with nowhere positive imaginary part. -/
def RetardedSE (σ : ℝ → ℂ) : Prop :=
  ∃ (F : ℂ → ℂ) (C : ℝ), ContinuousOn F {z | 0 ≤ z.im} ∧ DifferentiableOn ℂ F {z | 0 < z.im} ∧
    (∀ x : ℝ, F x = σ x) ∧ (∀ z, 0 ≤ z.im → ‖F z‖ ≤ C) ∧ ∀ z, 0 ≤ z.im → (F z).im ≤ 0

theorem retarded_G {p : Par} {σ : ℝ → SE} (h : RetardedSE fun v => (σ v).R) (hp : 0 < p.Gam + p.Lam) :
    Retarded fun v => (lineG p σ v).gr := by
  obtain ⟨F, C, h1, h2, h3, h4, h5⟩ := h
  set D : ℂ → ℂ := fun z => z - p.eps + I * p.Gam * 0.5 + I * p.Lam * 0.5 - F z with hD
  set δ : ℝ := (p.Gam + p.Lam) / 2 with hδ
  have hδ0 : 0 < δ := by positivity
  have im : ∀ z, 0 ≤ z.im → δ ≤ (D z).im := by
    intro z hz
    have := h5 z hz
    have e : (D z).im = z.im + δ - (F z).im := by
      have e05 : (0.5 : ℂ) = ((1/2 : ℝ) : ℂ) := by push_cast; norm_num
      simp [hD, hδ, e05]
      ring
    rw [e]; linarith
  have lo : ∀ z, 0 ≤ z.im → δ ≤ ‖D z‖ := fun z hz =>
    (im z hz).trans ((le_abs_self _).trans (Complex.abs_im_le_norm _))
  have ne : ∀ z, 0 ≤ z.im → D z ≠ 0 := fun z hz h0 => by
    have := lo z hz; rw [h0, norm_zero] at this; linarith
  have up : ∀ z, 0 ≤ z.im → ‖z‖ ≤ ‖D z‖ + (|p.eps| + δ + C) := by
    intro z hz
    have e : z = D z + p.eps - I * δ + F z := by
      simp only [hD, hδ]; push_cast; ring
    have n : ‖I * (δ : ℂ)‖ = δ := by rw [norm_mul, norm_I, one_mul, Complex.norm_real, Real.norm_eq_abs, abs_of_pos hδ0]
    calc ‖z‖ = ‖D z + p.eps - I * δ + F z‖ := by rw [← e]
      _ ≤ ‖D z + p.eps - I * δ‖ + ‖F z‖ := norm_add_le _ _
      _ ≤ (‖D z + p.eps‖ + ‖I * (δ : ℂ)‖) + ‖F z‖ := add_le_add (norm_sub_le _ _) le_rfl
      _ ≤ ((‖D z‖ + ‖(p.eps : ℂ)‖) + ‖I * (δ : ℂ)‖) + ‖F z‖ :=
        add_le_add (add_le_add (norm_add_le _ _) le_rfl) le_rfl
      _ ≤ ‖D z‖ + (|p.eps| + δ + C) := by
        rw [n, Complex.norm_real, Real.norm_eq_abs]; linarith [h4 z hz]
  refine ⟨fun z => 1 / D z, 1 + (1 + (|p.eps| + δ + C)) / δ, ?_, ?_, fun x => ?_, fun z hz => ?_⟩
  · refine continuousOn_const.div ?_ fun z hz => ne z hz
    exact ContinuousOn.sub (by fun_prop) h1
  · refine (differentiableOn_const _).div ?_ fun z hz => ne z (le_of_lt hz)
    exact DifferentiableOn.sub (by fun_prop) h2
  · show 1 / D x = 1 / (g0Rinv { p with v := x } + I * p.Lam * 0.5 - (σ x).R)
    congr 1
    simp only [hD, g0Rinv, h3]
    push_cast; ring
  · have hC : 0 ≤ C := (norm_nonneg _).trans (h4 z hz)
    have l := lo z hz
    have u := up z hz
    have pos : 0 < ‖D z‖ := lt_of_lt_of_le hδ0 l
    rw [norm_div, norm_one, div_mul_eq_mul_div, one_mul, div_le_iff₀ pos]
    have k : 1 + (|p.eps| + δ + C) ≤ (1 + (|p.eps| + δ + C)) / δ * ‖D z‖ := by
      rw [div_mul_eq_mul_div, le_div_iff₀ hδ0]
      exact mul_le_mul_of_nonneg_left l (by positivity)
    linarith

theorem retarded_S {p : Par} {σ dσ : ℝ → SE} (h : RetardedSE fun v => (σ v).R) (hd : Upper fun v => (dσ v).R)
    (hp : 0 < p.Gam + p.Lam) : Retarded fun v => (lineS p σ dσ v).gr := by
  have g := retarded_G h hp
  have g' := g.upper
  have a := (g.mul_upper g').mul_upper (Upper.const (-0.5 * I))
  have b := (g.mul_upper hd).mul_upper g'
  have e : (fun v => (lineS p σ dσ v).gr) = fun v => (lineG p σ v).gr * (lineG p σ v).gr * (-0.5 * I) +
      (lineG p σ v).gr * (dσ v).R * (lineG p σ v).gr := by
    funext v
    simp only [lineS, lineG, sR, sR2, katR, gR]
    ring
  rw [e]
  exact a.add b

theorem antiK_G (p : Par) (σ : ℝ → SE) : AntiK (lineG p σ) := by
  intro v
  simp [lineG, gKeq]

theorem antiK_S (p : Par) {σ dσ : ℝ → SE} (hd : ∀ v, star (dσ v).K = -(dσ v).K) : AntiK (lineS p σ dσ) := by
  intro v
  have h := antiK_G p σ v
  simp only [Complex.star_def] at h
  have h2 : (starRingEnd ℂ) (dσ v).K = -(dσ v).K := hd v
  simp only [lineS, katK, sKeq, star_add, star_mul', Complex.star_def, h, h2, conj_I, conj_ofReal, Complex.conj_conj]
  ring

/-- Particle-hole symmetry of a self-energy: the deviation of the level from the symmetric position is compensated. -/
def PHSE (eps : ℝ) (σ : ℝ → SE) : Prop := ∀ v, (σ (-v)).R = -star (σ v).R - 2 * eps

theorem gR_ph {p : Par} {σ : ℝ → SE} (h : PHSE p.eps σ) (v : ℝ) :
    gR .hyb { p with v := -v } (σ (-v)) = -star (gR .hyb { p with v := v } (σ v)) := by
  have e05 : (starRingEnd ℂ) (0.5 : ℂ) = 0.5 := by
    have : (0.5 : ℂ) = ((1/2 : ℝ) : ℂ) := by push_cast; norm_num
    rw [this, conj_ofReal]
  simp only [gR, gR2, g0Rinv, h v, Complex.star_def, map_div₀, map_one, map_sub, map_add, map_mul, conj_I,
    conj_ofReal, e05]
  rw [← div_neg]
  congr 1
  push_cast; ring

theorem fac_odd {p : Par} (hmu : p.mu = 0) (v : ℝ) : effFac true (-v) p.T p.mu 0 = -effFac true v p.T p.mu 0 := by
  simp [effFac, fermiFac, hmu, neg_div, Real.tanh_neg]

theorem ph_G {p : Par} {σ : ℝ → SE} (h : PHSE p.eps σ) (hmu : p.mu = 0) : PH (lineG p σ) := by
  intro v
  refine ⟨gR_ph h v, ?_⟩
  simp only [lineG, gKeq, fac_odd hmu, gR_ph h v]
  simp

theorem ph_S {p : Par} {σ dσ : ℝ → SE} (h : PHSE p.eps σ) (hmu : p.mu = 0)
    (hdR : ∀ v, (dσ (-v)).R = -star (dσ v).R) (hdK : ∀ v, (dσ (-v)).K = -(dσ v).K) : PH (lineS p σ dσ) := by
  intro v
  have g := gR_ph h v
  have g' : gR2 { p with v := -v } (σ (-v)) = -star (gR2 { p with v := v } (σ v)) := g
  have k := (ph_G h hmu v).2
  have e05 : (starRingEnd ℂ) (0.5 : ℂ) = 0.5 := by
    have : (0.5 : ℂ) = ((1/2 : ℝ) : ℂ) := by push_cast; norm_num
    rw [this, conj_ofReal]
  have s : sR .hyb { p with v := -v } (σ (-v)) = -star (sR .hyb { p with v := v } (σ v)) := by
    simp only [sR, sR2, g', Complex.star_def, map_mul, map_neg, e05, conj_I]
    ring
  refine ⟨?_, ?_⟩
  · simp only [lineS, katR, s, g, hdR, star_add, star_mul', Complex.star_def]
    ring
  · simp only [lineS, sKeq, katK, s, g, k, hdR, hdK, fac_odd hmu, Complex.star_def, map_neg, Complex.conj_conj]
    simp
    ring

/-- C149: the whole computation of the class `K1` with the propagators of the code: for vertices with the physical
symmetries and causal structure and a retarded self-energy, the result holds in every entry the diagram itself. -/
theorem c149_k1 {c : Ch} {L : Vertex ℝ ℂ} {ph : Bool} {p : Par} {σ dσ : ℝ → SE} {diff : Bool} {g : Grids ℝ} {ε : ℝ}
    (hL : Sym ⟨true, ph, false⟩ L) (hf : Free L c) (hc : CausalLeg L c)
    (hσ : RetardedSE fun v => (σ v).R) (hdσ : Upper fun v => (dσ v).R) (hdK : ∀ v, star (dσ v).K = -(dσ v).K)
    (hpos : 0 < p.Gam + p.Lam) (hph : ph = true → PHSE p.eps σ ∧ p.mu = 0 ∧ (∀ v, (dσ (-v)).R = -star (dσ v).R) ∧
      ∀ v, (dσ (-v)).K = -(dσ v).K)
    (hε : 0 ≤ ε) (hg : GoodGrids g) (dbg : Bool) {ws nodes : Nat} {small : ℂ → Bool}
    {sched : Nat → Nat → List (Nat × Nat)} (hws : 0 < ws) (hn : 0 < nodes) (hsm : small 0 = true)
    (hs : Mpi.ValidSchedule ⟨ws, nodes, Index.numElems (dims .k1 g 1), 16⟩
      ((Index.numElems (dims .k1 g 1) + nodes - 1) / nodes) sched) {l : List Event} (hl : Schedule .k1 g l) :
    ∃ f, call dbg .k1 ⟨true, ph, false⟩ ε g c (input .k1 g c L L (lineG p σ) (lineS p σ dσ) diff) ws nodes small sched l =
      .ok f ∧ ∀ k : Key, k.Valid .k1 g → f k = (bubble L L (pairOf (lineG p σ) (lineS p σ dσ) diff)).val false c k.spin
        (bits k.iK) (legFun (legs (.ch c) (keyFreq .k1 g k))) :=
  c149_completed hL hL (antiK_G p σ) (antiK_S p hdK)
    (fun h => ⟨ph_G (hph h).1 (hph h).2.1, ph_S (hph h).1 (hph h).2.1 (hph h).2.2.1 (hph h).2.2.2⟩)
    (fun _ => rfl) (fun _ => hf) (fun _ => hf)
    (c149_causal hc hc (retarded_G hσ hpos) fun _ => retarded_S hσ hdσ hpos) hε hg dbg hws hn hsm hs hl

end Verif.Heredity
