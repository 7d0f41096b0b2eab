import Verif.Sde.Limit

/-! The limit of complete integrals. -/
namespace Verif.Sde.Limit
open Verif.Symmetries Verif.Heredity Verif.Propagator Verif.Invariant MeasureTheory
open Verif.Freqs (Ch Fr legs)
variable {G : ℝ → Keldysh.Prop2 ℂ}

theorem int_three : Integrable fun x : ℝ => ((1 + ‖x‖) ^ (-(1 / 2 : ℝ))) ^ 3 := by
  have := integrable_one_add_norm (E := ℝ) (μ := volume) (r := 3 / 2) (by norm_num)
  refine this.congr (Filter.Eventually.of_forall fun x => ?_)
  have h : 0 ≤ 1 + ‖x‖ := by positivity
  simp only [← Real.rpow_natCast, ← Real.rpow_mul h]
  norm_num

/-- A product of three decaying functions can be integrated over two frequencies. -/
theorem prod_int (v : ℝ) : Integrable (fun p : ℝ × ℝ => (1 + ‖p.1‖)⁻¹ * (1 + ‖p.2‖)⁻¹ * (1 + ‖p.2 + p.1 - v‖)⁻¹) := by
  set s : ℝ → ℝ := fun x => (1 + ‖x‖) ^ (-(1 / 2 : ℝ)) with hs
  have h0 : ∀ x, 0 ≤ s x := fun x => by positivity
  have hsq : ∀ x, (1 + ‖x‖)⁻¹ = s x * s x := by
    intro x
    have h : 0 < 1 + ‖x‖ := by positivity
    simp only [hs, ← Real.rpow_add h]
    norm_num
    exact (Real.rpow_neg_one _).symm
  have i3 : Integrable fun x => s x ^ 3 := int_three
  have b0 : Integrable (fun p : ℝ × ℝ => s p.1 ^ 3 * s p.2 ^ 3) := i3.mul_prod i3
  have bs : Integrable (fun p : ℝ × ℝ => s p.1 ^ 3 * s (p.2 - v) ^ 3) := i3.mul_prod (i3.comp_sub_right v)
  have T := measurePreserving_prod_add (volume : Measure ℝ) (volume : Measure ℝ)
  have b2 : Integrable (fun p : ℝ × ℝ => s p.1 ^ 3 * s (p.1 + p.2 - v) ^ 3) :=
    (T.integrable_comp bs.aestronglyMeasurable).2 bs
  have b1 : Integrable (fun p : ℝ × ℝ => s p.2 ^ 3 * s (p.2 + p.1 - v) ^ 3) := b2.swap
  refine ((b0.add b1).add b2).mono' ?_ (Filter.Eventually.of_forall fun p => ?_)
  · have : Measurable fun p : ℝ × ℝ => (1 + ‖p.1‖)⁻¹ * (1 + ‖p.2‖)⁻¹ * (1 + ‖p.2 + p.1 - v‖)⁻¹ := by fun_prop
    exact this.aestronglyMeasurable
  · have := Imag.cubes (mul_nonneg (h0 p.1) (h0 p.2)) (mul_nonneg (h0 p.2) (h0 (p.2 + p.1 - v))) (mul_nonneg (h0 p.1) (h0 (p.2 + p.1 - v)))
    rw [Real.norm_of_nonneg (by positivity)]
    simp only [Pi.add_apply, ← mul_pow]
    rw [hsq p.1, hsq p.2, hsq (p.2 + p.1 - v), add_comm p.1 p.2]
    calc _ = s p.1 * s p.2 * (s p.2 * s (p.2 + p.1 - v)) * (s p.1 * s (p.2 + p.1 - v)) := by ring
      _ ≤ _ := this

theorem meas_legs2 (e1 e2 e3 e4 : ℝ × ℝ → ℝ) (h1 : Measurable e1) (h2 : Measurable e2) (h3 : Measurable e3) (h4 : Measurable e4) :
    Measurable fun y => ![e1 y, e2 y, e3 y, e4 y] := by
  rw [measurable_pi_iff]
  intro k
  fin_cases k
  · exact h1
  · exact h2
  · exact h3
  · exact h4

variable {g g' : (Fin 4 → Bool) → (Fin 4 → ℝ) → ℂ}

theorem kern_meas (hG : Decays G) (hg : Tame g) (w : ℝ) (o i : Bool) (v : ℝ) (k : K6) :
    Measurable fun p : ℝ × ℝ => kern G w g o i v p.1 p.2 k := by
  have m : ∀ (f : ℝ × ℝ → ℝ), Measurable f → ∀ a b, Measurable fun p => comp (G (f p)) a b := fun f hf a b =>
    (comp_meas hG a b).comp hf
  have hz : Measurable fun p : ℝ × ℝ => p.2 + p.1 - v := by fun_prop
  have l1 : ∀ α, Measurable fun p : ℝ × ℝ => g α ![p.2, p.1, v, p.2 + p.1 - v] := fun α =>
    (hg.meas α).comp (meas_legs2 _ _ _ _ measurable_snd measurable_fst measurable_const hz)
  have l2 : ∀ α, Measurable fun p : ℝ × ℝ => g α ![v, p.2 + p.1 - v, p.2, p.1] := fun α =>
    (hg.meas α).comp (meas_legs2 _ _ _ _ measurable_const hz measurable_snd measurable_fst)
  exact ((m _ measurable_fst _ _).mul ((m _ measurable_snd _ _).mul (m _ hz _ _))).mul
    (((l1 _).const_mul _).add ((l2 _).mul_const _))

theorem dia_int (hG : Decays G) (hg : Tame g) (w : ℝ) (o i : Bool) (v : ℝ) :
    Integrable fun p : ℝ × ℝ => dia G w g o i v p.1 p.2 := by
  refine integrable_finsetSum _ fun k _ => ?_
  obtain ⟨C, hC0, hC⟩ := comp_bound hG
  obtain ⟨B, hB⟩ := hg.bound
  have hB0 : 0 ≤ B := (norm_nonneg _).trans (hB (fun _ => false) 0)
  refine ((prod_int v).const_mul (C * C * C * (2 * |w| * B))).mono' (kern_meas hG hg w o i v k).aestronglyMeasurable
    (Filter.Eventually.of_forall fun p => ?_)
  simp only [kern, norm_mul]
  have hs : ∀ a b c d a' b' c' d' α ν α' ν', ‖beta w a b c d * g α ν + g α' ν' * beta w a' b' c' d'‖ ≤ 2 * |w| * B := by
    intro a b c d a' b' c' d' α ν α' ν'
    refine (norm_add_le _ _).trans ?_
    rw [norm_mul, norm_mul]
    have h1 : ‖beta w a b c d‖ * ‖g α ν‖ ≤ |w| * B := mul_le_mul (beta_bound ..) (hB _ _) (norm_nonneg _) (abs_nonneg _)
    have h2 : ‖g α' ν'‖ * ‖beta w a' b' c' d'‖ ≤ B * |w| := mul_le_mul (hB _ _) (beta_bound ..) (norm_nonneg _) hB0
    linarith
  calc _ ≤ (C * (1 + ‖p.1‖)⁻¹) * ((C * (1 + ‖p.2‖)⁻¹) * (C * (1 + ‖p.2 + p.1 - v‖)⁻¹)) * (2 * |w| * B) := by
        gcongr
        · exact hC _ _ _
        · exact hC _ _ _
        · exact hC _ _ _
        · exact hs ..
    _ = _ := by ring

/-- The complete diagram. -/
noncomputable def whole (G : ℝ → Keldysh.Prop2 ℂ) (w : ℝ) (g : (Fin 4 → Bool) → (Fin 4 → ℝ) → ℂ) (o i : Bool) (v : ℝ) : ℂ :=
  Loop.prefactor * (pref .a * (1/2) * ∫ p : ℝ × ℝ, dia G w g o i v p.1 p.2)

theorem whole_add (hG : Decays G) (hg : Tame g) (hg' : Tame g') (w : ℝ) (o i : Bool) (v : ℝ) :
    whole G w (fun α ν => g α ν + g' α ν) o i v = whole G w g o i v + whole G w g' o i v := by
  have e : ∀ p : ℝ × ℝ, dia G w (fun α ν => g α ν + g' α ν) o i v p.1 p.2 = dia G w g o i v p.1 p.2 + dia G w g' o i v p.1 p.2 := by
    intro p
    simp only [dia, ← Finset.sum_add_distrib]
    refine Finset.sum_congr rfl fun k _ => ?_
    simp only [kern]; ring
  unfold whole
  simp only [e]
  rw [integral_add (dia_int hG hg w o i v) (dia_int hG hg' w o i v)]
  ring

/-- The loop integral of an integrable function tends to the integral over all frequencies. -/
theorem loop_limit {S : ℝ → ℂ} (h : Integrable S) (v : ℝ) : Filter.Tendsto
    (fun Δ : ℝ => ∫ x in (-Δ * 10 - |v|)..(Δ * 10 + |v|), (S x + S (-x)) * (1/2)) Filter.atTop (nhds (∫ x, S x)) := by
  have h2 : Integrable fun x => (S x + S (-x)) * (1/2) := (h.add h.comp_neg).mul_const _
  have e : ∫ x, (S x + S (-x)) * (1/2) = ∫ x, S x := by
    rw [integral_mul_const, integral_add h h.comp_neg, integral_neg_eq_self]
    ring
  rw [← e]
  have t : Filter.Tendsto (fun Δ : ℝ => Δ * 10 + |v|) Filter.atTop Filter.atTop :=
    Filter.tendsto_atTop_add_const_right _ _ (Filter.tendsto_id.atTop_mul_const (by norm_num))
  refine intervalIntegral_tendsto_integral h2 ?_ t
  have := Filter.tendsto_neg_atTop_atBot.comp t
  refine this.congr fun Δ => ?_
  simp only [Function.comp]; ring

theorem integral_limit {W : Closed} {F : ℝ × ℝ → ℂ} (hF : Integrable F) {κ : ℂ} {o i : Bool} {v : ℝ}
    (h : ∀ vp, sumK W (G vp) o i v vp = κ * ∫ y, F (vp, y)) : Filter.Tendsto (fun Δ => integral Δ W G o i v) Filter.atTop
      (nhds (Loop.prefactor * (κ * ∫ p, F p))) := by
  have hS : Integrable fun vp => sumK W (G vp) o i v vp := by
    simp only [h]
    exact hF.integral_prod_left.const_mul κ
  have := (loop_limit hS v).const_mul Loop.prefactor
  rw [show (∫ p, F p) = ∫ vp, ∫ y, F (vp, y) from integral_prod F hF, ← integral_const_mul]
  simp only [← h]
  exact this

theorem shear (hG : Decays G) (hg : Tame g) (w : ℝ) (o i : Bool) (v : ℝ) :
    Integrable (fun p : ℝ × ℝ => dia G w g o i v (v + p.1 - p.2) p.2) ∧
    ∫ p : ℝ × ℝ, dia G w g o i v (v + p.1 - p.2) p.2 = ∫ p : ℝ × ℝ, dia G w g o i v p.1 p.2 := by
  have T1 := measurePreserving_sub_prod (volume : Measure ℝ) (volume : Measure ℝ)
  have T2 : MeasurePreserving (fun p : ℝ × ℝ => (v + p.1, p.2)) :=
    (measurePreserving_add_left (volume : Measure ℝ) v).prod (MeasurePreserving.id (volume : Measure ℝ))
  have T := T2.comp T1
  have hI := dia_int hG hg w o i v
  have e : (fun p : ℝ × ℝ => dia G w g o i v (v + p.1 - p.2) p.2) = (fun p : ℝ × ℝ => dia G w g o i v p.1 p.2) ∘
      ((fun p : ℝ × ℝ => (v + p.1, p.2)) ∘ fun z : ℝ × ℝ => (z.1 - z.2, z.2)) := by
    funext p
    simp only [Function.comp, add_sub_assoc]
  rw [e]
  refine ⟨(T.integrable_comp hI.aestronglyMeasurable).2 hI, ?_⟩
  have key := integral_map (f := fun p : ℝ × ℝ => dia G w g o i v p.1 p.2) T.measurable.aemeasurable
    (by rw [T.map_eq]; exact hI.aestronglyMeasurable)
  rw [T.map_eq] at key
  exact key.symm

end Verif.Sde.Limit
