import Verif.Multiloop.PropsPreserve
import Verif.Multiloop.PropsCase

/-! # C143: a concrete flow -/
namespace Verif.Multiloop

open Keldysh (Ch)
open Filter Set

noncomputable section

/-- The strength of the bubble along the flow. -/
def exC (l : ℝ) : ℝ := l / (1 / 4 + 5 / 2 * l + 6 * l ^ 2)

/-- Its derivative. -/
def exC' (l : ℝ) : ℝ := (1 / 4 - 6 * l ^ 2) / (1 / 4 + 5 / 2 * l + 6 * l ^ 2) ^ 2

/-- The vertex of `exKnown` along a flow: the reducible parts equal the flow parameter. -/
def exFlow (l : ℝ) : Known ℝ ℝ ℝ :=
  { exKnown with red := fun _ => l, pi := exPis l, ext := 0, single := exC' l }

theorem exPis_apply (l : ℝ) (r : Ch) (x y : ℝ) : exPis l r x y = exC l * (x * y) := by simp [exPis, exC]

theorem exC_deriv {l : ℝ} (hl : 0 < l) : HasDerivAt exC (exC' l) l := by
  have h0 : (1 / 4 + 5 / 2 * l + 6 * l ^ 2 : ℝ) ≠ 0 := by positivity
  have h1 : HasDerivAt (fun l : ℝ => 1 / 4 + 5 / 2 * l + 6 * l ^ 2) (5 / 2 + 12 * l) l := by
    have := ((((hasDerivAt_id' l).const_mul (5 / 2)).const_add (1 / 4)).add
      (((hasDerivAt_id' l).pow 2).const_mul 6))
    refine this.congr_deriv ?_
    norm_num
    ring
  refine ((hasDerivAt_id' l).div h1 h0).congr_deriv ?_
  unfold exC'
  congr 1
  ring

theorem exFlow_dpi (l : ℝ) (r : Ch) : (exFlow l).dpi ((exFlow l).katanin 0) r = exC' l • ContinuousLinearMap.mul ℝ ℝ := by
  simp [exFlow, Known.katanin, exKnown]

theorem exFlow_flow : Flow exFlow (fun _ => 0) (fun _ _ => 1) (1 / 10) (1 / 6) where
  bare := fun _ _ => rfl
  chain := fun l _ => by
    have e : ∀ a b r, (exFlow l).pi r a b = exC l * (a * b) := fun a b r => exPis_apply l r a b
    have d : ∀ a b r, (exFlow l).dpi ((exFlow l).katanin 0) r a b = exC' l * (a * b) := fun a b r => by
      rw [exFlow_dpi]; simp
    constructor <;> intro r a b c <;> simp only [e, d] <;> ring
  bubble := fun l hl r => by
    rw [exFlow_dpi]
    exact smul_deriv (ContinuousLinearMap.mul ℝ ℝ) (exC_deriv (by linarith [hl.1]))
  vertex := fun l _ r => hasDerivAt_id' l

theorem exFlow_coupling {l : ℝ} (hl : l ∈ Icc (1 / 10 : ℝ) (1 / 6)) : Coupling (exFlow l) (1 / 5) := by
  have l0 : 0 < l := by linarith [hl.1]
  intro r
  have hf : (exFlow l).full = 1 / 2 + 3 * l := by
    simp [Known.full, total, exFlow, exKnown]
    ring
  have hc : 0 ≤ exC l := by unfold exC; positivity
  have h1 : ‖(exFlow l).pi r‖ ≤ exC l := by
    refine ContinuousLinearMap.opNorm_le_bound₂ _ hc fun a b => ?_
    show ‖exPis l r a b‖ ≤ _
    rw [exPis_apply, norm_mul, norm_mul, Real.norm_of_nonneg hc, mul_assoc]
  rw [hf, Real.norm_of_nonneg (by positivity)]
  refine (mul_le_mul_of_nonneg_right h1 (by positivity)).trans ?_
  unfold exC
  rw [div_mul_eq_mul_div, div_le_div_iff₀ (by positivity) (by norm_num)]
  nlinarith [hl.2]

theorem smul_cont {V : Type} [NormedAddCommGroup V] [NormedSpace ℝ V] (m : V) {f : ℝ → ℝ} {s : Set ℝ}
    (h : ContinuousOn f s) : ContinuousOn (fun l => f l • m) s := h.smul continuousOn_const

/-- All hypotheses of `c143_preserve` hold for this flow, including the convergence of the loop orders. -/
example (E : MfRG.Eqs (Ch → ℝ) ℝ) (l : ℝ) (hl : l ∈ Icc (1 / 10 : ℝ) (1 / 6)) :
    Parquet (exFlow l).pi (exFlow l).bare (exFlow l).red := by
  refine c143_preserve E exFlow_flow (fun r => (continuousOn_const : ContinuousOn (fun _ : ℝ => (1 : ℝ)) _)) (fun r => ?_) (fun m hm => ?_)
    (exFamily (1 / 6) (by norm_num)) l hl
  · simp only [exFlow_dpi]
    refine smul_cont (ContinuousLinearMap.mul ℝ ℝ) (fun m hm => ?_)
    have m0 : 0 < m := by linarith [hm.1]
    refine ContinuousAt.continuousWithinAt ?_
    unfold exC'
    refine ContinuousAt.div (by fun_prop) (by fun_prop) (by positivity)
  · have m0 : 0 < m := by linarith [hm.1]
    have hd : DerivedBSE (exFlow m).pi ((exFlow m).dpi ((exFlow m).katanin 0)) (exFlow m).bare (exFlow m).red (fun _ => 1) := by
      have := c139_family exPis ((exFlow m).dpi ((exFlow m).katanin 0)) (exFlow m).bare (fun l _ => l) (fun _ => 1) m
        (by filter_upwards [lt_mem_nhds m0] with x hx using exFamily x hx)
        (fun r => exFlow_flow.bubble m hm r) (fun r => hasDerivAt_id' m)
      exact this
    have he (n : ℕ) := c139_error E (exFlow m) 0 (exFamily m m0) (exFlow_flow.chain m hm) _ hd (exFlow_coupling hm)
      (by norm_num) n
    have hs : Real.sqrt (4 * (1 / 5) + 2 * (1 / 5) ^ 2) < 1 := by
      rw [Real.sqrt_lt' one_pos]
      norm_num
    have ht := (tendsto_pow_atTop_nhds_zero_of_lt_one (Real.sqrt_nonneg _) hs).mul_const ‖(fun _ => 1 : Ch → ℝ)‖
    rw [zero_mul] at ht
    rw [tendsto_iff_norm_sub_tendsto_zero]
    refine squeeze_zero (fun _ => norm_nonneg _) (fun n => ?_) ht
    rw [norm_sub_rev]
    exact he n

end

end Verif.Multiloop
