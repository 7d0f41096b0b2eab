import Verif.Order.Jet
import Mathlib.Analysis.Calculus.Deriv.Prod
import Mathlib.Tactic.Positivity

/-! A function with vanishing derivatives is small. -/
namespace Verif.Order
open Filter Topology

variable {V W : Type} [NormedAddCommGroup V] [NormedSpace ℝ V] [NormedAddCommGroup W] [NormedSpace ℝ W]

theorem section_smooth {n : WithTop ℕ∞} {e : V × ℝ → W} {x : V} {h : ℝ} (he : ContDiffAt ℝ n e (x, h)) : ContDiffAt ℝ n (fun h => e (x, h)) h :=
  ContDiffAt.comp h he (contDiffAt_const.prodMk contDiffAt_id)

/-- If the first `n` derivatives in the second variable vanish at zero, the function is of the order of the `n`-th power,
uniformly in the first variable. -/
theorem small (n : ℕ) {e : ℝ × ℝ → W} {x : ℝ} (he : ContDiffAt ℝ n e (x, 0))
    (hz : ∀ k < n, ∀ᶠ t in 𝓝 x, iteratedDeriv k (fun h => e (t, h)) 0 = 0) :
    ∃ C, 0 ≤ C ∧ ∀ᶠ z in 𝓝 (x, (0 : ℝ)), ‖e z‖ ≤ C * |z.2| ^ n := by
  induction n generalizing e with
  | zero =>
    refine ⟨‖e (x, 0)‖ + 1, by positivity, ?_⟩
    have := he.continuousAt.norm.eventually (gt_mem_nhds (show ‖e (x, 0)‖ < ‖e (x, 0)‖ + 1 by linarith))
    filter_upwards [this] with z hz
    rw [pow_zero, mul_one]
    exact hz.le
  | succ n ih =>
    set e' : ℝ × ℝ → W := fun z => fderiv ℝ e z (0, 1) with he'
    have s' : ContDiffAt ℝ n e' (x, 0) := (he.fderiv_right (m := n) (by exact_mod_cast le_rfl)).clm_apply contDiffAt_const
    have ev : ∀ᶠ z in 𝓝 (x, (0 : ℝ)), HasDerivAt (fun h => e (z.1, h)) (e' z) z.2 := by
      filter_upwards [he.eventually (by simp)] with z hz
      have d := (hz.differentiableAt (by simp)).hasFDerivAt
      have l : HasDerivAt (fun h : ℝ => (z.1, h)) ((0 : ℝ), (1 : ℝ)) z.2 := HasDerivAt.prodMk (hasDerivAt_const z.2 z.1) (hasDerivAt_id' z.2)
      exact HasFDerivAt.comp_hasDerivAt (l := e) (f := fun h : ℝ => (z.1, h)) z.2 d l
    obtain ⟨C, C0, hC⟩ := ih s' fun k hk => by
      filter_upwards [hz (k + 1) (by omega), ev.curry_nhds] with t ht et
      rw [iteratedDeriv_succ'] at ht
      rw [← ht]
      refine Filter.EventuallyEq.iteratedDeriv_eq k ?_
      filter_upwards [et] with h hh
      exact hh.deriv.symm
    obtain ⟨r, r0, hr⟩ := Metric.eventually_nhds_iff.1 (ev.and hC)
    obtain ⟨r', r0', hr'⟩ := Metric.eventually_nhds_iff.1 (hz 0 (by omega))
    refine ⟨C, C0, Metric.eventually_nhds_iff.2 ⟨min r r', lt_min r0 r0', fun z hz => ?_⟩⟩
    obtain ⟨t, h⟩ := z
    rw [Prod.dist_eq, max_lt_iff] at hz
    simp only [Real.dist_eq, sub_zero] at hz
    have z0 := hr' (y := t) (by rw [Real.dist_eq]; exact hz.1.trans_le (min_le_right _ _))
    rw [iteratedDeriv_zero] at z0
    have box : ∀ s ∈ Set.uIcc 0 h, HasDerivAt (fun h => e (t, h)) (e' (t, s)) s ∧ ‖e' (t, s)‖ ≤ C * |h| ^ n := fun s hs => by
      have a := Set.abs_sub_left_of_mem_uIcc hs
      rw [sub_zero, sub_zero] at a
      have b := hr (y := (t, s)) (by
        rw [Prod.dist_eq, max_lt_iff]
        simp only [Real.dist_eq, sub_zero]
        exact ⟨hz.1.trans_le (min_le_left _ _), (a.trans_lt hz.2).trans_le (min_le_left _ _)⟩)
      exact ⟨b.1, b.2.trans (mul_le_mul_of_nonneg_left (pow_le_pow_left₀ (abs_nonneg _) a n) C0)⟩
    have := (convex_uIcc 0 h).norm_image_sub_le_of_norm_hasDerivWithin_le (fun s hs => (box s hs).1.hasDerivWithinAt) (fun s hs => (box s hs).2)
      Set.left_mem_uIcc Set.right_mem_uIcc
    rw [z0, sub_zero, sub_zero, Real.norm_eq_abs] at this
    calc ‖e (t, h)‖ ≤ C * |h| ^ n * |h| := this
      _ = _ := by ring

end Verif.Order
