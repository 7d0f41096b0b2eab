import Mathlib.Analysis.ODE.ExistUnique
import Mathlib.Analysis.Calculus.ContDiff.RCLike
import Mathlib.Analysis.Calculus.MeanValue
import Mathlib.Topology.MetricSpace.Thickening

/-! Differential equations whose right-hand side is a smooth function of the state and of parameters that depend continuously on
the scale. -/
namespace Verif.Truncated
open Set Metric Topology

variable {A E : Type} [NormedAddCommGroup A] [NormedSpace ℝ A] [NormedAddCommGroup E] [NormedSpace ℝ E]
variable {G : A × E → E} {c : ℝ → A}

/-- The derivative of `G` is bounded near a compact set, which makes `G` Lipschitz there. -/
theorem near (hG : ContDiff ℝ 1 G) {C : Set (A × E)} (hC : IsCompact C) :
    ∃ r > 0, ∃ K : ℝ, 0 ≤ K ∧ ∀ z ∈ C, ∀ x ∈ ball z r, ∀ y ∈ ball z r, ‖G x - G y‖ ≤ K * ‖x - y‖ := by
  have hc : Continuous fun z => ‖fderiv ℝ G z‖ := (hG.continuous_fderiv one_ne_zero).norm
  obtain ⟨M, hM⟩ := hC.exists_bound_of_continuousOn hc.continuousOn
  have ho : IsOpen {z | ‖fderiv ℝ G z‖ < |M| + 1} := isOpen_lt hc continuous_const
  obtain ⟨r, r0, hr⟩ := hC.exists_thickening_subset_open ho (fun z hz => by
    have := hM z hz
    rw [norm_norm] at this
    have := le_abs_self M
    show ‖fderiv ℝ G z‖ < |M| + 1
    linarith)
  refine ⟨r, r0, |M| + 1, by positivity, fun z hz x hx y hy => ?_⟩
  refine Convex.norm_image_sub_le_of_norm_fderiv_le (𝕜 := ℝ) (s := ball z r) (fun w _ => hG.differentiable one_ne_zero w) (fun w hw => ?_) (convex_ball z r) hy hx
  exact (hr (mem_thickening_iff.2 ⟨z, hz, hw⟩)).le

/-- Around a continuous curve the right-hand side is Lipschitz, with one constant. -/
theorem tube (hG : ContDiff ℝ 1 G) {a b : ℝ} (hc : ContinuousOn c (Icc a b)) {y : ℝ → E} (hy : ContinuousOn y (Icc a b)) :
    ∃ r > 0, ∃ K : ℝ, 0 ≤ K ∧ ∀ l ∈ Icc a b, ∀ x, ‖x - y l‖ ≤ r → ‖G (c l, x) - G (c l, y l)‖ ≤ K * ‖x - y l‖ := by
  obtain ⟨r, r0, K, K0, h⟩ := near hG (isCompact_Icc.image_of_continuousOn (hc.prodMk hy))
  refine ⟨r / 2, half_pos r0, K, K0, fun l hl x hx => ?_⟩
  have := h _ (mem_image_of_mem _ hl) (c l, x) ?_ (c l, y l) (mem_ball_self r0)
  · refine this.trans (mul_le_mul_of_nonneg_left ?_ K0)
    rw [Prod.mk_sub_mk, sub_self, Prod.norm_mk, norm_zero, max_eq_right (norm_nonneg _)]
  · rw [mem_ball, dist_eq_norm, Prod.mk_sub_mk, sub_self, Prod.norm_mk, norm_zero, max_eq_right (norm_nonneg _)]
    linarith

/-- Two solutions that agree at one scale agree. -/
theorem unique (hG : ContDiff ℝ 1 G) {a b : ℝ} (hc : ContinuousOn c (Icc a b)) {y z : ℝ → E}
    (hy : ∀ l ∈ Icc a b, HasDerivWithinAt y (G (c l, y l)) (Icc a b) l) (hz : ∀ l ∈ Icc a b, HasDerivWithinAt z (G (c l, z l)) (Icc a b) l)
    {m : ℝ} (hm : m ∈ Icc a b) (e : y m = z m) : EqOn y z (Icc a b) := by
  have cy : ContinuousOn y (Icc a b) := fun l hl => (hy l hl).continuousWithinAt
  have cz : ContinuousOn z (Icc a b) := fun l hl => (hz l hl).continuousWithinAt
  have hcomp : IsCompact ((fun q : ℝ × ℝ => (c q.1, y q.1 + q.2 • (z q.1 - y q.1))) '' (Icc a b ×ˢ Icc (0 : ℝ) 1)) := by
    refine (isCompact_Icc.prod isCompact_Icc).image_of_continuousOn ?_
    have m1 : MapsTo Prod.fst (Icc a b ×ˢ Icc (0 : ℝ) 1) (Icc a b) := fun q hq => hq.1
    exact (hc.comp continuousOn_fst m1).prodMk ((cy.comp continuousOn_fst m1).add
      (continuousOn_snd.smul ((cz.comp continuousOn_fst m1).sub (cy.comp continuousOn_fst m1))))
  have hfc : Continuous fun w => ‖fderiv ℝ G w‖ := (hG.continuous_fderiv one_ne_zero).norm
  obtain ⟨M, hM⟩ := hcomp.exists_bound_of_continuousOn hfc.continuousOn
  have lip : ∀ l ∈ Icc a b, ‖G (c l, z l) - G (c l, y l)‖ ≤ |M| * ‖z l - y l‖ := fun l hl => by
    have := Convex.norm_image_sub_le_of_norm_fderiv_le (𝕜 := ℝ) (f := G) (C := |M|) (s := segment ℝ (c l, y l) (c l, z l)) (x := (c l, y l)) (y := (c l, z l))
      (fun w _ => hG.differentiable one_ne_zero w) (fun w hw => by
        rw [segment_eq_image'] at hw
        obtain ⟨θ, hθ, rfl⟩ := hw
        have := hM _ (mem_image_of_mem _ (⟨hl, hθ⟩ : ((l, θ) : ℝ × ℝ) ∈ Icc a b ×ˢ Icc (0 : ℝ) 1))
        rw [norm_norm] at this
        have e1 : ((c l, y l) + θ • ((c l, z l) - (c l, y l)) : A × E) = (c l, y l + θ • (z l - y l)) := by simp
        dsimp only
        rw [e1]
        exact this.trans (le_abs_self M))
      (convex_segment _ _) (left_mem_segment ℝ _ _) (right_mem_segment ℝ _ _)
    rwa [Prod.mk_sub_mk, sub_self, Prod.norm_mk, norm_zero, max_eq_right (norm_nonneg _)] at this
  have lip' : ∀ l ∈ Icc a b, LipschitzOnWith (Real.toNNReal |M|) (fun x => G (c l, x)) {y l, z l} := fun l hl => by
    refine LipschitzOnWith.of_dist_le_mul fun u hu v hv => ?_
    rw [Real.coe_toNNReal _ (abs_nonneg M), dist_eq_norm, dist_eq_norm]
    have h1 := lip l hl
    simp only [mem_insert_iff, mem_singleton_iff] at hu hv
    rcases hu with rfl | rfl <;> rcases hv with rfl | rfl
    · simp
    · rw [norm_sub_rev, norm_sub_rev (y l)]; exact h1
    · exact h1
    · simp
  have right : EqOn y z (Icc m b) := ODE_solution_unique_of_mem_Icc_right (v := fun l x => G (c l, x)) (s := fun l => {y l, z l})
    (fun l hl => lip' l ⟨hm.1.trans hl.1, hl.2.le⟩) (cy.mono (Icc_subset_Icc_left hm.1))
    (fun l hl => (hy l ⟨hm.1.trans hl.1, hl.2.le⟩).mono_of_mem_nhdsWithin (Filter.mem_of_superset (Icc_mem_nhdsGE hl.2) (Icc_subset_Icc_left (hm.1.trans hl.1))))
    (fun l _ => mem_insert _ _) (cz.mono (Icc_subset_Icc_left hm.1))
    (fun l hl => (hz l ⟨hm.1.trans hl.1, hl.2.le⟩).mono_of_mem_nhdsWithin (Filter.mem_of_superset (Icc_mem_nhdsGE hl.2) (Icc_subset_Icc_left (hm.1.trans hl.1))))
    (fun l _ => mem_insert_of_mem _ rfl) e
  have left : EqOn y z (Icc a m) := ODE_solution_unique_of_mem_Icc_left (v := fun l x => G (c l, x)) (s := fun l => {y l, z l})
    (fun l hl => lip' l ⟨hl.1.le, hl.2.trans hm.2⟩) (cy.mono (Icc_subset_Icc_right hm.2))
    (fun l hl => (hy l ⟨hl.1.le, hl.2.trans hm.2⟩).mono_of_mem_nhdsWithin (Filter.mem_of_superset (Icc_mem_nhdsLE hl.1) (Icc_subset_Icc_right (hl.2.trans hm.2))))
    (fun l _ => mem_insert _ _) (cz.mono (Icc_subset_Icc_right hm.2))
    (fun l hl => (hz l ⟨hl.1.le, hl.2.trans hm.2⟩).mono_of_mem_nhdsWithin (Filter.mem_of_superset (Icc_mem_nhdsLE hl.1) (Icc_subset_Icc_right (hl.2.trans hm.2))))
    (fun l _ => mem_insert_of_mem _ rfl) e
  intro l hl
  rcases le_total l m with h | h
  · exact left ⟨hl.1, h⟩
  · exact right ⟨h, hl.2⟩

/-- Through every point goes a solution. -/
theorem exist [CompleteSpace E] (hG : ContDiff ℝ 1 G) {J : Set ℝ} (hJ : IsOpen J) (hc : ContinuousOn c J) {m : ℝ} (hm : m ∈ J) (x₀ : E) :
    ∃ ε > 0, Icc (m - ε) (m + ε) ⊆ J ∧ ∃ y : ℝ → E, y m = x₀ ∧
      ∀ l ∈ Icc (m - ε) (m + ε), HasDerivWithinAt y (G (c l, y l)) (Icc (m - ε) (m + ε)) l := by
  obtain ⟨r, r0, K, K0, hK⟩ := near hG (isCompact_singleton (x := (c m, x₀)))
  have hK := hK _ rfl
  have ev : ∀ᶠ l in 𝓝 m, l ∈ J ∧ dist (c l) (c m) < r :=
    (hJ.eventually_mem hm).and ((hc.continuousAt (hJ.mem_nhds hm)).eventually (ball_mem_nhds _ r0))
  obtain ⟨δ, δ0, hδ⟩ := Metric.eventually_nhds_iff.1 ev
  set L := K * r + ‖G (c m, x₀)‖ with hL
  have L0 : 0 ≤ L := by positivity
  set ε := min (δ / 2) (r / 2 / (L + 1)) with hε
  have ε0 : 0 < ε := lt_min (by positivity) (by positivity)
  have inside : ∀ l ∈ Icc (m - ε) (m + ε), l ∈ J ∧ dist (c l) (c m) < r := fun l hl => hδ (by
    rw [Real.dist_eq, abs_lt]
    have := min_le_left (δ / 2) (r / 2 / (L + 1))
    constructor <;> linarith [hl.1, hl.2])
  have inball : ∀ l ∈ Icc (m - ε) (m + ε), ∀ x ∈ closedBall x₀ (r / 2), ((c l, x) : A × E) ∈ ball (c m, x₀) r := fun l hl x hx => by
    rw [mem_ball, Prod.dist_eq]
    exact max_lt (inside l hl).2 ((mem_closedBall.1 hx).trans_lt (by linarith))
  have P : IsPicardLindelof (fun l x => G (c l, x)) (tmin := m - ε) (tmax := m + ε) ⟨m, by constructor <;> linarith⟩ x₀
      (Real.toNNReal (r / 2)) 0 (Real.toNNReal L) (Real.toNNReal K) := by
    have hr : ((Real.toNNReal (r / 2) : NNReal) : ℝ) = r / 2 := Real.coe_toNNReal _ (by positivity)
    refine ⟨fun l hl => LipschitzOnWith.of_dist_le_mul fun x hx y hy => ?_, fun x hx => ?_, fun l hl x hx => ?_, ?_⟩
    · rw [hr] at hx hy
      rw [Real.coe_toNNReal _ K0, dist_eq_norm, dist_eq_norm]
      have := hK _ (inball l hl x hx) _ (inball l hl y hy)
      rwa [Prod.mk_sub_mk, sub_self, Prod.norm_mk, norm_zero, max_eq_right (norm_nonneg _)] at this
    · exact hG.continuous.comp_continuousOn ((hc.mono fun l hl => (inside l hl).1).prodMk continuousOn_const)
    · rw [hr] at hx
      rw [Real.coe_toNNReal _ L0]
      have h1 := hK _ (inball l hl x hx) _ (mem_ball_self r0)
      have h2 := inball l hl x hx
      rw [mem_ball, dist_eq_norm] at h2
      have h3 : ‖G (c l, x)‖ ≤ ‖G (c l, x) - G (c m, x₀)‖ + ‖G (c m, x₀)‖ := by
        simpa using norm_add_le (G (c l, x) - G (c m, x₀)) (G (c m, x₀))
      have h4 := mul_le_mul_of_nonneg_left h2.le K0
      show ‖G (c l, x)‖ ≤ L
      rw [hL]
      linarith
    · rw [hr, Real.coe_toNNReal _ L0]
      have : max (m + ε - m) (m - (m - ε)) = ε := by
        rw [show m + ε - m = ε by ring, show m - (m - ε) = ε by ring, max_self]
      show L * max (m + ε - m) (m - (m - ε)) ≤ r / 2 - ((0 : NNReal) : ℝ)
      rw [this, NNReal.coe_zero, sub_zero]
      have h1 := min_le_right (δ / 2) (r / 2 / (L + 1))
      have h2 : L * ε ≤ (L + 1) * (r / 2 / (L + 1)) := mul_le_mul (by linarith) h1 ε0.le (by positivity)
      rwa [mul_div_cancel₀ _ (by positivity)] at h2
  obtain ⟨y, y0, hy⟩ := P.exists_eq_forall_mem_Icc_hasDerivWithinAt₀
  exact ⟨ε, ε0, fun l hl => (inside l hl).1, y, y0, hy⟩

end Verif.Truncated
