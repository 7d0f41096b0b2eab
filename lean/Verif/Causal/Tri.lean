import Verif.Causal.Analytic
import Verif.Sde.Whole

/-! Integrals over two frequencies of products of three functions, as in the second-order diagram. -/
namespace Verif.Causal
open MeasureTheory Complex Filter Topology Set Verif.Heredity Verif.Sde Verif.Sde.Limit

/-- The weight with which three decaying functions are bounded. -/
noncomputable def wgt (v : ℝ) (p : ℝ × ℝ) : ℝ := (1 + ‖p.1‖)⁻¹ * (1 + ‖p.2‖)⁻¹ * (1 + ‖p.2 + p.1 - v‖)⁻¹

theorem wgt_int (v : ℝ) : Integrable (wgt v) := prod_int v

/-- A change of variables. -/
theorem change {f : ℝ × ℝ → ℂ} {T : ℝ × ℝ → ℝ × ℝ} (hT : MeasurePreserving T) (hf : Integrable f) :
    Integrable (fun p => f (T p)) ∧ ∫ p, f (T p) = ∫ p, f p := by
  refine ⟨(hT.integrable_comp hf.aestronglyMeasurable).2 hf, ?_⟩
  have key := integral_map (f := f) hT.measurable.aemeasurable (by rw [hT.map_eq]; exact hf.aestronglyMeasurable)
  rw [hT.map_eq] at key
  exact key.symm

theorem changeR {f : ℝ × ℝ → ℝ} {T : ℝ × ℝ → ℝ × ℝ} (hT : MeasurePreserving T) (hf : Integrable f) :
    Integrable (fun p => f (T p)) ∧ ∫ p, f (T p) = ∫ p, f p := by
  refine ⟨(hT.integrable_comp hf.aestronglyMeasurable).2 hf, ?_⟩
  have key := integral_map (f := f) hT.measurable.aemeasurable (by rw [hT.map_eq]; exact hf.aestronglyMeasurable)
  rw [hT.map_eq] at key
  exact key.symm

/-- The integral of the weight is bounded uniformly in the frequency. -/
theorem wgt_bound : ∃ B : ℝ, ∀ v, ∫ p, wgt v p ≤ B := by
  set s : ℝ → ℝ := fun x => (1 + ‖x‖) ^ (-(1 / 2 : ℝ)) with hs
  have h0 : ∀ x, 0 ≤ s x := fun x => by positivity
  have hsq : ∀ x, (1 + ‖x‖)⁻¹ = s x * s x := by
    intro x
    have h : 0 < 1 + ‖x‖ := by positivity
    simp only [hs, ← Real.rpow_add h]
    norm_num
    exact (Real.rpow_neg_one _).symm
  have i3 : Integrable fun x => s x ^ 3 := int_three
  set J : ℝ := ∫ x, s x ^ 3 with hJ
  refine ⟨3 * (J * J), fun v => ?_⟩
  have b0 : Integrable (fun p : ℝ × ℝ => s p.1 ^ 3 * s p.2 ^ 3) := i3.mul_prod i3
  have e0 : ∫ p : ℝ × ℝ, s p.1 ^ 3 * s p.2 ^ 3 = J * J := integral_prod_mul (fun x => s x ^ 3) fun x => s x ^ 3
  have bs : Integrable (fun p : ℝ × ℝ => s p.1 ^ 3 * s (p.2 - v) ^ 3) := i3.mul_prod (i3.comp_sub_right v)
  have es : ∫ p : ℝ × ℝ, s p.1 ^ 3 * s (p.2 - v) ^ 3 = J * J := by
    refine (integral_prod_mul (fun x => s x ^ 3) fun x => s (x - v) ^ 3).trans ?_
    rw [integral_sub_right_eq_self (fun x => s x ^ 3) v]
  have T := measurePreserving_prod_add (volume : Measure ℝ) (volume : Measure ℝ)
  obtain ⟨b2, e2⟩ := changeR T bs
  obtain ⟨b1, e1⟩ := changeR (Measure.measurePreserving_swap (μ := (volume : Measure ℝ)) (ν := (volume : Measure ℝ))) b2
  have le : ∀ p, wgt v p ≤ s p.1 ^ 3 * s p.2 ^ 3 + s p.2 ^ 3 * s (p.2 + p.1 - v) ^ 3 + s p.1 ^ 3 * s (p.1 + p.2 - v) ^ 3 := by
    intro p
    have := Imag.cubes (mul_nonneg (h0 p.1) (h0 p.2)) (mul_nonneg (h0 p.2) (h0 (p.2 + p.1 - v))) (mul_nonneg (h0 p.1) (h0 (p.2 + p.1 - v)))
    simp only [wgt, ← mul_pow]
    rw [hsq p.1, hsq p.2, hsq (p.2 + p.1 - v), add_comm p.1 p.2]
    calc _ = s p.1 * s p.2 * (s p.2 * s (p.2 + p.1 - v)) * (s p.1 * s (p.2 + p.1 - v)) := by ring
      _ ≤ _ := this
  calc ∫ p, wgt v p ≤ ∫ p : ℝ × ℝ, (s p.1 ^ 3 * s p.2 ^ 3 + s p.2 ^ 3 * s (p.2 + p.1 - v) ^ 3 + s p.1 ^ 3 * s (p.1 + p.2 - v) ^ 3) :=
        integral_mono (wgt_int v) ((b0.add b1).add b2) le
    _ = J * J + J * J + J * J := by
        have a := integral_add (b0.add b1) b2
        have b := integral_add b0 b1
        refine a.trans ?_
        rw [show (∫ p : ℝ × ℝ, s p.1 ^ 3 * s (p.1 + p.2 - v) ^ 3) = _ from e2, es]
        congr 1
        refine b.trans ?_
        rw [e0]
        congr 1
        exact e1.trans (e2.trans es)
    _ = 3 * (J * J) := by ring

/-- A measurable function that decays at least like the inverse frequency. -/
structure Falls (f : ℝ → ℂ) : Prop where
  meas : Measurable f
  bound : ∃ M : ℝ, 0 ≤ M ∧ ∀ x, ‖f x‖ ≤ M * (1 + ‖x‖)⁻¹

theorem Falls.star {f : ℝ → ℂ} (h : Falls f) : Falls fun x => star (f x) := by
  obtain ⟨M, h0, hM⟩ := h.bound
  exact ⟨continuous_star.measurable.comp h.meas, M, h0, fun x => by simpa using hM x⟩

theorem Falls.neg {f : ℝ → ℂ} (h : Falls f) : Falls fun x => f (-x) := by
  obtain ⟨M, h0, hM⟩ := h.bound
  exact ⟨h.meas.comp measurable_neg, M, h0, fun x => by simpa using hM (-x)⟩

/-- The integral. -/
noncomputable def tri (f g h : ℝ → ℂ) (v : ℝ) : ℂ := ∫ p : ℝ × ℝ, f p.1 * g p.2 * h (p.2 + p.1 - v)

section
variable {f g h : ℝ → ℂ} (hf : Falls f) (hg : Falls g) (hh : Falls h)

include hf hg hh in
theorem tri_int (v : ℝ) : Integrable fun p : ℝ × ℝ => f p.1 * g p.2 * h (p.2 + p.1 - v) := by
  obtain ⟨a, a0, ha⟩ := hf.bound
  obtain ⟨b, b0, hb⟩ := hg.bound
  obtain ⟨c, c0, hc⟩ := hh.bound
  have hz : Measurable fun p : ℝ × ℝ => p.2 + p.1 - v := by fun_prop
  refine ((wgt_int v).const_mul (a * b * c)).mono' (((hf.meas.comp measurable_fst).mul (hg.meas.comp measurable_snd)).mul
    (hh.meas.comp hz)).aestronglyMeasurable (Eventually.of_forall fun p => ?_)
  rw [norm_mul, norm_mul]
  calc _ ≤ (a * (1 + ‖p.1‖)⁻¹) * (b * (1 + ‖p.2‖)⁻¹) * (c * (1 + ‖p.2 + p.1 - v‖)⁻¹) := by
        gcongr
        · exact ha _
        · exact hb _
        · exact hc _
    _ = _ := by simp only [wgt]; ring

theorem tri_swap (f g h : ℝ → ℂ) (v : ℝ) : tri f g h v = tri g f h v := by
  unfold tri
  refine Eq.trans ?_ (integral_prod_swap (μ := (volume : Measure ℝ)) (ν := (volume : Measure ℝ))
    fun p : ℝ × ℝ => g p.1 * f p.2 * h (p.2 + p.1 - v))
  refine integral_congr_ae (Eventually.of_forall fun p => ?_)
  simp only [Prod.fst_swap, Prod.snd_swap]
  rw [add_comm p.2 p.1]; ring

include hf hg hh in
theorem tri_shear (v : ℝ) : Integrable (fun p : ℝ × ℝ => f (v + p.1 - p.2) * g p.2 * h p.1) ∧
    ∫ p : ℝ × ℝ, f (v + p.1 - p.2) * g p.2 * h p.1 = tri f g h v := by
  have T1 := measurePreserving_sub_prod (volume : Measure ℝ) (volume : Measure ℝ)
  have T2 : MeasurePreserving (fun p : ℝ × ℝ => (v + p.1, p.2)) :=
    (measurePreserving_add_left (volume : Measure ℝ) v).prod (MeasurePreserving.id (volume : Measure ℝ))
  have key := change (T2.comp T1) (tri_int hf hg hh v)
  have e : ∀ p : ℝ × ℝ, f (v + p.1 - p.2) * g p.2 * h p.1 =
      f (((fun p : ℝ × ℝ => (v + p.1, p.2)) ∘ fun z : ℝ × ℝ => (z.1 - z.2, z.2)) p).1 *
      g (((fun p : ℝ × ℝ => (v + p.1, p.2)) ∘ fun z : ℝ × ℝ => (z.1 - z.2, z.2)) p).2 *
      h ((((fun p : ℝ × ℝ => (v + p.1, p.2)) ∘ fun z : ℝ × ℝ => (z.1 - z.2, z.2)) p).2 +
        (((fun p : ℝ × ℝ => (v + p.1, p.2)) ∘ fun z : ℝ × ℝ => (z.1 - z.2, z.2)) p).1 - v) := by
    intro p
    simp only [Function.comp]
    rw [show p.2 + (v + (p.1 - p.2)) - v = p.1 by ring, ← add_sub_assoc]
  simp only [e]
  exact key

include hf hg hh in
theorem tri_zero_right (h0 : ∀ c : ℝ, ∫ y, g y * h (y + c) = 0) (v : ℝ) : tri f g h v = 0 := by
  unfold tri
  rw [show (∫ p : ℝ × ℝ, f p.1 * g p.2 * h (p.2 + p.1 - v)) = ∫ x, ∫ y, f x * g y * h (y + x - v) from
    integral_prod _ (tri_int hf hg hh v)]
  simp only [mul_assoc, integral_const_mul, add_sub_assoc, h0, mul_zero, integral_zero]

include hf hg hh in
theorem tri_zero_outer (h0 : ∀ c : ℝ, ∫ y, f y * h (y + c) = 0) (v : ℝ) : tri f g h v = 0 := by
  rw [tri_swap]
  exact tri_zero_right hg hf hh h0 v

include hf hg hh in
theorem tri_zero_left (h0 : ∀ c : ℝ, ∫ y, f (c - y) * g y = 0) (v : ℝ) : tri f g h v = 0 := by
  obtain ⟨I, E⟩ := tri_shear hf hg hh v
  rw [← E, show (∫ p : ℝ × ℝ, f (v + p.1 - p.2) * g p.2 * h p.1) = ∫ x, ∫ y, f (v + x - y) * g y * h x from integral_prod _ I]
  simp only [integral_mul_const, h0, zero_mul, integral_zero]

include hf hg in
/-- Continuation when the third function is the reflection of a retarded function. -/
theorem tri_upper_third {r : ℝ → ℂ} (hr : Retarded r) : Upper fun v => tri f g (fun x => r (-x)) v := by
  obtain ⟨a, a0, ha⟩ := hf.bound
  obtain ⟨b, b0, hb⟩ := hg.bound
  obtain ⟨B, hB⟩ := wgt_bound
  have le : ∀ v (p : ℝ × ℝ), ‖f p.1 * g p.2‖ * (1 + |v - (p.2 + p.1)|)⁻¹ ≤ a * b * wgt v p := by
    intro v p
    rw [norm_mul, abs_sub_comm, ← Real.norm_eq_abs]
    calc _ ≤ (a * (1 + ‖p.1‖)⁻¹) * (b * (1 + ‖p.2‖)⁻¹) * (1 + ‖p.2 + p.1 - v‖)⁻¹ := by
          gcongr
          · exact ha _
          · exact hb _
      _ = _ := by simp only [wgt]; ring
  have mk : Measurable fun p : ℝ × ℝ => f p.1 * g p.2 := (hf.meas.comp measurable_fst).mul (hg.meas.comp measurable_snd)
  have ml : Measurable fun p : ℝ × ℝ => p.2 + p.1 := by fun_prop
  have I : ∀ v : ℝ, Integrable fun p : ℝ × ℝ => ‖f p.1 * g p.2‖ * (1 + |v - (p.2 + p.1)|)⁻¹ := fun v =>
    ((wgt_int v).const_mul (a * b)).mono' (mk.norm.mul (by fun_prop)).aestronglyMeasurable
      (Eventually.of_forall fun p => by rw [Real.norm_of_nonneg (by positivity)]; exact le v p)
  have U := upper_integral (μ := (volume : Measure (ℝ × ℝ))) (B := a * b * B) mk ml I (fun v => by
    refine (integral_mono (I v) ((wgt_int v).const_mul (a * b)) (le v)).trans ?_
    rw [integral_const_mul]
    exact mul_le_mul_of_nonneg_left (hB v) (by positivity)) hr
  refine Eq.mp (congrArg Upper (funext fun v => ?_)) U
  unfold tri
  refine integral_congr_ae (Eventually.of_forall fun p => ?_)
  simp only [neg_sub]

include hg hh in
/-- Continuation when the first function is retarded. -/
theorem tri_upper_first {r : ℝ → ℂ} (hr : Retarded r) (hf : Falls r) : Upper fun v => tri r g h v := by
  have U := tri_upper_third hh.neg hg hr
  refine Eq.mp (congrArg Upper (funext fun v => ?_)) U
  rw [← (tri_shear hf hg hh v).2]
  have N : MeasurePreserving (fun p : ℝ × ℝ => (-p.1, p.2)) :=
    (Measure.measurePreserving_neg (volume : Measure ℝ)).prod (MeasurePreserving.id (volume : Measure ℝ))
  have key := (change N (tri_shear hf hg hh v).1).2
  refine Eq.trans ?_ key
  unfold tri
  refine integral_congr_ae (Eventually.of_forall fun p => ?_)
  simp only [neg_sub]
  rw [show v - (p.2 + p.1) = v + -p.1 - p.2 by ring]; ring

include hf hh in
theorem tri_upper_second {r : ℝ → ℂ} (hr : Retarded r) (hg : Falls r) : Upper fun v => tri f r h v := by
  have U := tri_upper_first hf hh hr hg
  refine Eq.mp (congrArg Upper (funext fun v => ?_)) U
  exact tri_swap _ _ _ _
end

end Verif.Causal
