import Verif.Converge.Bubble
import Verif.Sde.Lemmas

/-! Bounds of loops and of differences between loops. -/
namespace Verif.Converge
open Verif.Symmetries Verif.Heredity Verif.Propagator Verif.Weak Verif.Sde MeasureTheory
open Verif.Invariant (VF SF bub)
open Verif.Freqs (Ch)

/-! ### Integrals between limits -/

theorem prefactor_le : ‖Loop.prefactor‖ ≤ 1 := by
  have hpi := Real.pi_gt_three
  have p0 := Real.pi_pos
  have : ‖Loop.prefactor‖ = 1 / (2 * Real.pi) := by simp [Loop.prefactor, abs_of_pos p0]
  rw [this, div_le_one (by positivity)]
  linarith

/-- The integral of a loop. -/
noncomputable def swing (f : ℝ → ℂ) (a b : ℝ) : ℂ := Loop.prefactor * ∫ x in a..b, (f x + f (-x)) * (1 / 2)

theorem swing_near {f f' : ℝ → ℂ} {g : ℝ → ℝ} {K : ℝ} (hf : Integrable f) (hf' : Integrable f') (hg : Integrable g)
    (h : ∀ x, ‖f x - f' x‖ ≤ K * g x) (a b : ℝ) : ‖swing f a b - swing f' a b‖ ≤ K * ∫ x, g x := by
  have i := (hf.add hf.comp_neg).mul_const (1 / 2 : ℂ)
  have i' := (hf'.add hf'.comp_neg).mul_const (1 / 2 : ℂ)
  have e : (∫ x in a..b, (f x + f (-x)) * (1 / 2)) - (∫ x in a..b, (f' x + f' (-x)) * (1 / 2)) =
      ∫ x in a..b, ((f x + f (-x)) * (1 / 2) - (f' x + f' (-x)) * (1 / 2)) :=
    (intervalIntegral.integral_sub i.intervalIntegrable i'.intervalIntegrable).symm
  unfold swing
  rw [← mul_sub, norm_mul, e]
  have le : ‖∫ x in a..b, ((f x + f (-x)) * (1 / 2) - (f' x + f' (-x)) * (1 / 2))‖ ≤ K * ∫ x, g x := by
    refine intervalIntegral.norm_integral_le_integral_norm_uIoc.trans ?_
    refine (setIntegral_le_integral (i.sub i').norm (Filter.Eventually.of_forall fun x => norm_nonneg _)).trans ?_
    have gi := ((hg.add hg.comp_neg).const_mul (K / 2))
    refine (integral_mono_of_nonneg (Filter.Eventually.of_forall fun x => norm_nonneg _) gi (Filter.Eventually.of_forall fun x => ?_)).trans (le_of_eq ?_)
    · have e2 : (f x + f (-x)) * (1 / 2) - (f' x + f' (-x)) * (1 / 2) = ((f x - f' x) + (f (-x) - f' (-x))) * (1 / 2) := by ring
      show ‖(f x + f (-x)) * (1 / 2) - (f' x + f' (-x)) * (1 / 2)‖ ≤ K / 2 * (g x + g (-x))
      rw [e2, norm_mul]
      have n : ‖(1 / 2 : ℂ)‖ = 1 / 2 := by norm_num
      rw [n]
      have := norm_add_le (f x - f' x) (f (-x) - f' (-x))
      linarith [h x, h (-x)]
    · rw [integral_const_mul]
      have := integral_add hg hg.comp_neg
      simp only [Pi.add_apply]
      rw [this, integral_neg_eq_self]
      ring
  have := mul_le_mul prefactor_le le (norm_nonneg _) zero_le_one
  linarith

theorem between_meas {F : ℝ × ℝ → ℂ} (hF : Measurable F) {a b : ℝ → ℝ} (ha : Measurable a) (hb : Measurable b) :
    Measurable fun v => ∫ x in a v..b v, F (v, x) := by
  have key : ∀ {a b : ℝ → ℝ}, Measurable a → Measurable b → Measurable fun v => ∫ x in Set.Ioc (a v) (b v), F (v, x) := by
    intro a b ha hb
    have e : (fun v => ∫ x in Set.Ioc (a v) (b v), F (v, x)) = fun v => ∫ x, ({q : ℝ × ℝ | a q.1 < q.2 ∧ q.2 ≤ b q.1}.indicator F) (v, x) := by
      funext v
      rw [← integral_indicator measurableSet_Ioc]
      rfl
    rw [e]
    refine (StronglyMeasurable.integral_prod_right (ν := volume) (f := fun v x => ({q : ℝ × ℝ | a q.1 < q.2 ∧ q.2 ≤ b q.1}.indicator F) (v, x)) ?_).measurable
    refine (hF.indicator ?_).stronglyMeasurable
    exact (measurableSet_lt (ha.comp measurable_fst) measurable_snd).inter (measurableSet_le measurable_snd (hb.comp measurable_fst))
  simp only [intervalIntegral]
  exact (key ha hb).sub (key hb ha)

theorem swing_meas {F : ℝ → ℝ → ℂ} (hF : Measurable fun q : ℝ × ℝ => F q.1 q.2) {a b : ℝ → ℝ} (ha : Measurable a) (hb : Measurable b) :
    Measurable fun v => swing (F v) (a v) (b v) := by
  unfold swing
  refine Measurable.const_mul ?_ _
  exact between_meas (F := fun q => (F q.1 q.2 + F q.1 (-q.2)) * (1 / 2))
    ((hF.add (hF.comp (measurable_fst.prodMk measurable_snd.neg))).mul_const _) ha hb

/-! ### Loops -/

/-- The energies at which a loop reads the vertex. -/
def reads (version : Bool) (v vp : ℝ) : Fin 4 → ℝ := if version then ![vp, v, v, vp] else ![v, vp, v, vp]

theorem reads_away (h e v : ℝ) (c : Ch) : ∃ s, ∀ x, away h e c (reads (c == .t) v x) = (x - s) / h := by
  cases c
  · exact ⟨v, fun x => by simp [away, reads]⟩
  · exact ⟨2 * e - v, fun x => by simp [away, reads]; ring⟩
  · exact ⟨v, fun x => by simp [away, reads]⟩

section
variable {Γ Γ' : Part} {G G' : ℝ → Keldysh.Prop2 ℂ} {h e k d g dg : ℝ} {c : Ch}

theorem seen_le (hΓ : ∀ s α ν, ‖Γ s α ν‖ ≤ g * fall h e c ν) (version o b i f : Bool) (v vp : ℝ) :
    ‖seen version Γ o b i f v vp‖ ≤ 2 * (g * fall h e c (reads version v vp)) := by
  cases version
  · simp only [seen, reads, Bool.false_eq_true, if_false]
    have := hΓ 0 ![o, b, i, f] ![v, vp, v, vp]
    linarith [norm_nonneg (Γ 0 ![o, b, i, f] ![v, vp, v, vp])]
  · simp only [seen, reads, if_true]
    refine (norm_add_le _ _).trans ?_
    linarith [hΓ 0 ![b, o, i, f] ![vp, v, v, vp], hΓ 1 ![b, o, i, f] ![vp, v, v, vp]]

theorem seen_sub (version o b i f : Bool) (v vp : ℝ) :
    seen version Γ o b i f v vp - seen version Γ' o b i f v vp = seen version (fun s α ν => Γ s α ν - Γ' s α ν) o b i f v vp := by
  cases version
  · simp only [seen, Bool.false_eq_true, if_false]
  · simp only [seen, if_true]
    ring

theorem sumK_near (hΓ' : ∀ s α ν, ‖Γ' s α ν‖ ≤ g * fall h e c ν) (hd : ∀ s α ν, ‖Γ s α ν - Γ' s α ν‖ ≤ dg * fall h e c ν)
    (hG : Line k h e G) (hdG : NearG d h e G G') (version o i : Bool) (v vp : ℝ) :
    ‖sumK (seen version Γ) (G vp) o i v vp - sumK (seen version Γ') (G' vp) o i v vp‖ ≤
      8 * (k * dg + d * g) * (fall h e c (reads version v vp) * rho h e vp) := by
  have key : ∀ b f, ‖comp (G vp) f b * seen version Γ o b i f v vp - comp (G' vp) f b * seen version Γ' o b i f v vp‖ ≤
      2 * (k * dg + d * g) * (fall h e c (reads version v vp) * rho h e vp) := fun b f => by
    have e1 : comp (G vp) f b * seen version Γ o b i f v vp - comp (G' vp) f b * seen version Γ' o b i f v vp =
      comp (G vp) f b * (seen version Γ o b i f v vp - seen version Γ' o b i f v vp) + (comp (G vp) f b - comp (G' vp) f b) * seen version Γ' o b i f v vp := by ring
    have a1 := hG.bound vp f b
    have a2 : ‖seen version Γ o b i f v vp - seen version Γ' o b i f v vp‖ ≤ 2 * (dg * fall h e c (reads version v vp)) := by
      rw [seen_sub]; exact seen_le hd ..
    have a3 := hdG vp f b
    have a4 := seen_le hΓ' version o b i f v vp
    rw [e1]
    refine (norm_add_le _ _).trans ?_
    rw [norm_mul, norm_mul]
    refine (add_le_add (mul_le_mul a1 a2 (norm_nonneg _) ((norm_nonneg _).trans a1)) (mul_le_mul a3 a4 (norm_nonneg _) ((norm_nonneg _).trans a3))).trans (le_of_eq ?_)
    ring
  have e2 : sumK (seen version Γ) (G vp) o i v vp - sumK (seen version Γ') (G' vp) o i v vp =
      ∑ b : Bool, ∑ f : Bool, (comp (G vp) f b * seen version Γ o b i f v vp - comp (G' vp) f b * seen version Γ' o b i f v vp) := by
    simp only [sumK, Finset.sum_sub_distrib]
  rw [e2, Fintype.sum_bool, Fintype.sum_bool, Fintype.sum_bool]
  refine (norm_add_le _ _).trans ((add_le_add (norm_add_le _ _) (norm_add_le _ _)).trans ?_)
  linarith [key true true, key true false, key false true, key false false]

theorem sumK_meas (mΓ : ∀ s α, Measurable (Γ s α)) (mG : ∀ a b, Measurable fun x => comp (G x) a b) (version o i : Bool) :
    Measurable fun q : ℝ × ℝ => sumK (seen version Γ) (G q.2) o i q.1 q.2 := by
  unfold sumK
  refine Finset.measurable_sum _ fun b _ => Finset.measurable_sum _ fun f _ => ?_
  refine ((mG f b).comp measurable_snd).mul ?_
  cases version
  · simp only [seen, Bool.false_eq_true, if_false]
    exact (mΓ _ _).comp (meas4 measurable_fst measurable_snd measurable_fst measurable_snd)
  · simp only [seen, if_true]
    exact ((mΓ _ _).comp (meas4 measurable_snd measurable_fst measurable_fst measurable_snd)).add
      ((mΓ _ _).comp (meas4 measurable_snd measurable_fst measurable_fst measurable_snd))

theorem sumK_zero (version o i : Bool) (v vp : ℝ) (G : Keldysh.Prop2 ℂ) : sumK (seen version fun _ _ _ => 0) G o i v vp = 0 := by
  unfold sumK
  refine Finset.sum_eq_zero fun b _ => Finset.sum_eq_zero fun f _ => ?_
  cases version <;> simp [seen]

theorem sumK_int (hh : 0 < h) (mΓ : ∀ s α, Measurable (Γ s α)) (hΓ : ∀ s α ν, ‖Γ s α ν‖ ≤ g * fall h e c ν)
    (hG : Line k h e G) (o i : Bool) (v : ℝ) : Integrable fun vp => sumK (seen (c == .t) Γ) (G vp) o i v vp := by
  refine ((loop_kernel hh e c (reads (c == .t) v) (reads_away h e v c)).1.const_mul (8 * (k * g + 0 * 0))).mono' ?_ (Filter.Eventually.of_forall fun x => ?_)
  · exact ((sumK_meas mΓ hG.meas (c == .t) o i).comp (measurable_const.prodMk measurable_id)).aestronglyMeasurable
  · have := sumK_near (Γ := Γ) (Γ' := fun _ _ _ => 0) (g := 0) (dg := g) (fun s α ν => by simp) (fun s α ν => by simpa using hΓ s α ν) hG (nearG_refl G) (c == .t) o i v x
    rwa [sumK_zero, sub_zero] at this

theorem integral_swing (Δ : ℝ) (W : Closed) (o i : Bool) (v : ℝ) :
    Verif.Sde.integral Δ W G o i v = swing (fun vp => sumK W (G vp) o i v vp) (-Δ * 10 - |v|) (Δ * 10 + |v|) := rfl

theorem turned (b : Bool) (x : ℂ) : ‖(if b then -1 else 1 : ℝ) • x‖ = ‖x‖ := by
  cases b <;> simp

/-- Loops over vertices and propagators that are close to each other. -/
theorem loop_near (hh : 0 < h) (mΓ : ∀ s α, Measurable (Γ s α)) (mΓ' : ∀ s α, Measurable (Γ' s α))
    (hΓ : ∀ s α ν, ‖Γ s α ν‖ ≤ g * fall h e c ν) (hΓ' : ∀ s α ν, ‖Γ' s α ν‖ ≤ g * fall h e c ν)
    (hd : ∀ s α ν, ‖Γ s α ν - Γ' s α ν‖ ≤ dg * fall h e c ν) (hG : Line k h e G) (hG' : Line k h e G') (hdG : NearG d h e G G') (Δ : ℝ) :
    NearS (16 * total (5 / 4) * h * (k * dg + d * g)) (loopOne (c == .t) Δ Γ G) (loopOne (c == .t) Δ Γ' G') := by
  intro v
  have key : ∀ o i, ‖Verif.Sde.integral Δ (seen (c == .t) Γ) G o i v - Verif.Sde.integral Δ (seen (c == .t) Γ') G' o i v‖ ≤
      16 * total (5 / 4) * h * (k * dg + d * g) := fun o i => by
    obtain ⟨ki, kl⟩ := loop_kernel hh e c (reads (c == .t) v) (reads_away h e v c)
    rw [integral_swing, integral_swing]
    refine (swing_near (sumK_int hh mΓ hΓ hG o i v) (sumK_int hh mΓ' hΓ' hG' o i v) ki
      (fun x => sumK_near hΓ' hd hG hdG (c == .t) o i v x) _ _).trans ?_
    have k0 := nonneg_of_mul_nonneg_left ((norm_nonneg _).trans (hG.bound 0 true true)) (rho_pos h e 0)
    have d0 := nonneg_of_mul_nonneg_left ((norm_nonneg _).trans (hdG 0 true true)) (rho_pos h e 0)
    have fp : 0 < fall h e c 0 := by unfold fall; positivity
    have g0 := nonneg_of_mul_nonneg_left ((norm_nonneg _).trans (hΓ 0 (fun _ => true) 0)) fp
    have dg0 := nonneg_of_mul_nonneg_left ((norm_nonneg _).trans (hd 0 (fun _ => true) 0)) fp
    have := mul_le_mul_of_nonneg_left kl (show 0 ≤ 8 * (k * dg + d * g) by positivity)
    refine this.trans (le_of_eq ?_)
    ring
  rw [loopOne_value, loopOne_value]
  constructor
  · show ‖(if (c == .t) then -1 else 1 : ℝ) • star (Verif.Sde.integral Δ (seen (c == .t) Γ) G true false v) -
      (if (c == .t) then -1 else 1 : ℝ) • star (Verif.Sde.integral Δ (seen (c == .t) Γ') G' true false v)‖ ≤ _
    rw [← smul_sub, turned, ← star_sub, norm_star]
    exact key true false
  · show ‖(if (c == .t) then -1 else 1 : ℝ) • Verif.Sde.integral Δ (seen (c == .t) Γ) G false false v -
      (if (c == .t) then -1 else 1 : ℝ) • Verif.Sde.integral Δ (seen (c == .t) Γ') G' false false v‖ ≤ _
    rw [← smul_sub, turned]
    exact key false false

theorem loop_meas (mΓ : ∀ s α, Measurable (Γ s α)) (mG : ∀ a b, Measurable fun x => comp (G x) a b) (version : Bool) (Δ : ℝ) :
    Measurable (loopOne version Δ Γ G).1 ∧ Measurable (loopOne version Δ Γ G).2 := by
  have key : ∀ o i, Measurable fun v => Verif.Sde.integral Δ (seen version Γ) G o i v := fun o i => by
    simp only [integral_swing]
    exact swing_meas (F := fun v vp => sumK (seen version Γ) (G vp) o i v vp) (sumK_meas mΓ mG version o i) (by fun_prop) (by fun_prop)
  rw [loopOne_value]
  constructor
  · exact ((continuous_star.measurable.comp (key true false)).const_smul (if version then -1 else 1 : ℝ))
  · exact ((key false false).const_smul (if version then -1 else 1 : ℝ))

end

end Verif.Converge
