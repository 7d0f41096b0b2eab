import Mathlib.Analysis.Complex.CauchyIntegral
import Mathlib.MeasureTheory.Integral.IntegralEqImproper
import Mathlib.Analysis.SpecialFunctions.ImproperIntegrals
import Mathlib.Analysis.Calculus.Deriv.Star
import Mathlib.MeasureTheory.Integral.Bochner.ContinuousLinearMap

/-! Functions that are boundary values of holomorphic functions in the upper half-plane, and the vanishing of their
integrals. -/
namespace Verif.Heredity
open MeasureTheory Complex Filter Topology Set

/-- A bounded function on the real axis that continues to a bounded holomorphic function in the upper half-plane. -/
def Upper (f : ℝ → ℂ) : Prop :=
  ∃ (F : ℂ → ℂ) (C : ℝ), ContinuousOn F {z | 0 ≤ z.im} ∧ DifferentiableOn ℂ F {z | 0 < z.im} ∧
    (∀ x : ℝ, F x = f x) ∧ ∀ z, 0 ≤ z.im → ‖F z‖ ≤ C

/-- A retarded function: it continues to a holomorphic function in the upper half-plane that decays like `1/z`. -/
def Retarded (f : ℝ → ℂ) : Prop :=
  ∃ (F : ℂ → ℂ) (C : ℝ), ContinuousOn F {z | 0 ≤ z.im} ∧ DifferentiableOn ℂ F {z | 0 < z.im} ∧
    (∀ x : ℝ, F x = f x) ∧ ∀ z, 0 ≤ z.im → ‖F z‖ * (1 + ‖z‖) ≤ C

/-- A function with integral zero. -/
def Null (f : ℝ → ℂ) : Prop := Integrable f ∧ ∫ x : ℝ, f x = 0

theorem Null.zero : Null fun _ => 0 := ⟨integrable_zero _ _ _, by simp⟩

theorem Null.add {f g : ℝ → ℂ} (hf : Null f) (hg : Null g) : Null fun x => f x + g x :=
  ⟨hf.1.add hg.1, by rw [integral_add hf.1 hg.1, hf.2, hg.2, add_zero]⟩

theorem Null.star {f : ℝ → ℂ} (hf : Null f) : Null fun x => star (f x) := by
  refine ⟨?_, ?_⟩
  · have := (Complex.conjCLE : ℂ →L[ℝ] ℂ).integrable_comp hf.1
    exact this
  · have : ∫ x : ℝ, (starRingEnd ℂ) (f x) = (starRingEnd ℂ) (∫ x : ℝ, f x) := integral_conj
    exact this.trans (by rw [hf.2, map_zero])

theorem Null.sum {ι : Type} (s : Finset ι) {f : ι → ℝ → ℂ} (h : ∀ i ∈ s, Null (f i)) : Null fun x => ∑ i ∈ s, f i x :=
  ⟨integrable_finsetSum s fun i hi => (h i hi).1, by
    rw [integral_finsetSum s fun i hi => (h i hi).1]
    exact Finset.sum_eq_zero fun i hi => (h i hi).2⟩

theorem Upper.const (a : ℂ) : Upper fun _ => a :=
  ⟨fun _ => a, ‖a‖, continuousOn_const, differentiableOn_const _, fun _ => rfl, fun _ _ => le_rfl⟩

theorem Upper.add {f g : ℝ → ℂ} : Upper f → Upper g → Upper fun x => f x + g x := by
  rintro ⟨F, C, h1, h2, h3, h4⟩ ⟨G, D, k1, k2, k3, k4⟩
  exact ⟨fun z => F z + G z, C + D, h1.add k1, h2.add k2, fun x => by simp only [h3, k3],
    fun z hz => (norm_add_le _ _).trans (add_le_add (h4 z hz) (k4 z hz))⟩

theorem Upper.mul {f g : ℝ → ℂ} : Upper f → Upper g → Upper fun x => f x * g x := by
  rintro ⟨F, C, h1, h2, h3, h4⟩ ⟨G, D, k1, k2, k3, k4⟩
  refine ⟨fun z => F z * G z, C * D, h1.mul k1, h2.mul k2, fun x => by simp only [h3, k3], fun z hz => ?_⟩
  rw [norm_mul]
  exact mul_le_mul (h4 z hz) (k4 z hz) (norm_nonneg _) ((norm_nonneg _).trans (h4 z hz))

theorem Retarded.mul_upper {f g : ℝ → ℂ} : Retarded f → Upper g → Retarded fun x => f x * g x := by
  rintro ⟨F, C, h1, h2, h3, h4⟩ ⟨G, D, k1, k2, k3, k4⟩
  refine ⟨fun z => F z * G z, C * D, h1.mul k1, h2.mul k2, fun x => by simp only [h3, k3], fun z hz => ?_⟩
  rw [norm_mul, mul_right_comm]
  have h0 : 0 ≤ ‖F z‖ * (1 + ‖z‖) := by positivity
  exact mul_le_mul (h4 z hz) (k4 z hz) (norm_nonneg _) (h0.trans (h4 z hz))

theorem Retarded.upper {f : ℝ → ℂ} : Retarded f → Upper f := by
  rintro ⟨F, C, h1, h2, h3, h4⟩
  refine ⟨F, C, h1, h2, h3, fun z hz => le_trans ?_ (h4 z hz)⟩
  nlinarith [norm_nonneg (F z), norm_nonneg z, mul_nonneg (norm_nonneg (F z)) (norm_nonneg z)]

theorem Retarded.add {f g : ℝ → ℂ} : Retarded f → Retarded g → Retarded fun x => f x + g x := by
  rintro ⟨F, C, h1, h2, h3, h4⟩ ⟨G, D, k1, k2, k3, k4⟩
  refine ⟨fun z => F z + G z, C + D, h1.add k1, h2.add k2, fun x => by simp only [h3, k3], fun z hz => ?_⟩
  have := norm_add_le (F z) (G z)
  nlinarith [h4 z hz, k4 z hz, norm_nonneg z, mul_le_mul_of_nonneg_right this (by positivity : (0:ℝ) ≤ 1 + ‖z‖)]

theorem Retarded.shift {f : ℝ → ℂ} (a : ℝ) : Retarded f → Retarded fun x => f (x + a) := by
  rintro ⟨F, C, h1, h2, h3, h4⟩
  refine ⟨fun z => F (z + a), C * (1 + |a|), ?_, ?_, fun x => ?_, fun z hz => ?_⟩
  · exact h1.comp (continuous_id.add continuous_const).continuousOn fun z hz => by simpa using hz
  · exact h2.comp ((differentiable_id.add_const _).differentiableOn) fun z hz => by simpa using hz
  · have : F ((x + a : ℝ) : ℂ) = f (x + a) := h3 (x + a)
    simp only [← this]; push_cast; rfl
  · have k := h4 (z + a) (by simpa using hz)
    have t : ‖z‖ ≤ ‖z + a‖ + |a| := by
      have := norm_sub_le (z + a) (a : ℂ)
      simpa using this
    have e : 1 + ‖z‖ ≤ (1 + ‖z + a‖) * (1 + |a|) := by nlinarith [norm_nonneg (z + a), abs_nonneg a]
    calc ‖F (z + a)‖ * (1 + ‖z‖) ≤ ‖F (z + a)‖ * ((1 + ‖z + a‖) * (1 + |a|)) :=
          mul_le_mul_of_nonneg_left e (norm_nonneg _)
      _ = ‖F (z + a)‖ * (1 + ‖z + a‖) * (1 + |a|) := by ring
      _ ≤ C * (1 + |a|) := mul_le_mul_of_nonneg_right k (by positivity)

theorem Retarded.reflect {f : ℝ → ℂ} : Retarded f → Retarded fun x => star (f (-x)) := by
  rintro ⟨F, C, h1, h2, h3, h4⟩
  refine ⟨fun z => (starRingEnd ℂ) (F (-(starRingEnd ℂ) z)), C, ?_, ?_, fun x => ?_, fun z hz => ?_⟩
  · exact continuous_conj.comp_continuousOn (h1.comp (continuous_conj.neg).continuousOn
      fun z hz => by simpa using hz)
  · intro z hz
    have hz' : 0 < (-(starRingEnd ℂ) z).im := by simpa using hz
    have d : DifferentiableAt ℂ (fun z => F (-z)) ((starRingEnd ℂ) z) := by
      have o : IsOpen {z : ℂ | 0 < z.im} := isOpen_lt continuous_const Complex.continuous_im
      have := (h2 _ hz').differentiableAt (o.mem_nhds hz')
      exact this.comp _ (differentiable_neg _)
    have := (d.conj_conj)
    have e := (starRingEnd_self_apply z)
    rw [e] at this
    exact this.differentiableWithinAt
  · have : F ((-x : ℝ) : ℂ) = f (-x) := h3 (-x)
    simp only [conj_ofReal]
    rw [← this]; push_cast; rfl
  · have := h4 (-(starRingEnd ℂ) z) (by simpa using hz)
    simpa using this

/-- Cauchy's theorem for the upper half-plane. -/
theorem null_of_decay {F : ℂ → ℂ} {C : ℝ} (hc : ContinuousOn F {z | 0 ≤ z.im})
    (hd : DifferentiableOn ℂ F {z | 0 < z.im}) (hb : ∀ z, 0 ≤ z.im → ‖F z‖ * (1 + ‖z‖) ^ 2 ≤ C) :
    Null fun x : ℝ => F x := by
  have hC : 0 ≤ C := le_trans (by positivity) (hb 0 (by simp))
  have hi : Integrable fun x : ℝ => F x := by
    have cont : Continuous fun x : ℝ => F x := by
      rw [← continuousOn_univ]
      exact hc.comp Complex.continuous_ofReal.continuousOn fun x _ => by simp
    refine (integrable_inv_one_add_sq.const_mul C).mono' cont.aestronglyMeasurable
      (Filter.Eventually.of_forall fun x => ?_)
    have h := hb x (by simp)
    rw [Complex.norm_real, Real.norm_eq_abs] at h
    have e : 1 + x ^ 2 ≤ (1 + |x|) ^ 2 := by nlinarith [abs_nonneg x, sq_abs x]
    rw [← div_eq_mul_inv, le_div_iff₀ (by positivity)]
    exact (mul_le_mul_of_nonneg_left e (norm_nonneg _)).trans h
  refine ⟨hi, ?_⟩
  have lim := intervalIntegral_tendsto_integral hi tendsto_neg_atTop_atBot tendsto_id
  refine tendsto_nhds_unique lim ?_
  have bound : ∀ T : ℝ, 0 < T → ‖∫ x in (-T)..T, F x‖ ≤ 4 * C * (1 + T)⁻¹ := by
    intro T hT
    have rect := integral_boundary_rect_eq_zero_of_continuousOn_of_differentiableOn F ((-T : ℝ) : ℂ) (T + T * I)
      (hc.mono ?_) (hd.mono ?_)
    · simp only [ofReal_re, ofReal_im, add_re, mul_re, I_re, mul_zero, I_im, mul_one, sub_self, add_zero, add_im,
        mul_im, zero_add, ofReal_zero, zero_mul] at rect
      have pt : ∀ z : ℂ, 0 ≤ z.im → T ≤ ‖z‖ → ‖F z‖ ≤ C * ((1 + T) ^ 2)⁻¹ := by
        intro z hz ht
        rw [← div_eq_mul_inv, le_div_iff₀ (by positivity)]
        refine le_trans (mul_le_mul_of_nonneg_left ?_ (norm_nonneg _)) (hb z hz)
        have : 0 ≤ ‖z‖ := norm_nonneg z
        nlinarith
      have b1 : ‖∫ x in (-T)..T, F (x + T * I)‖ ≤ C * ((1 + T) ^ 2)⁻¹ * |T - -T| := by
        refine intervalIntegral.norm_integral_le_of_norm_le_const fun x _ => pt _ (by simp [hT.le]) ?_
        have := Complex.abs_im_le_norm (x + T * I)
        simpa [abs_of_pos hT] using this
      have b2 : ∀ a : ℝ, |a| = T → ‖∫ y in (0:ℝ)..T, F (a + y * I)‖ ≤ C * ((1 + T) ^ 2)⁻¹ * |T - 0| := by
        intro a ha
        refine intervalIntegral.norm_integral_le_of_norm_le_const fun y hy => pt _ ?_ ?_
        · rw [uIoc_of_le hT.le] at hy
          simpa using hy.1.le
        · have := Complex.abs_re_le_norm (a + y * I)
          simpa [ha] using this
      have b2a := b2 T (abs_of_pos hT)
      have b2b := b2 (-T) (by rw [abs_neg, abs_of_pos hT])
      have eq : (∫ x in (-T)..T, F x) = (∫ x in (-T)..T, F (x + T * I)) - I • (∫ y in (0:ℝ)..T, F (T + y * I)) +
          I • (∫ y in (0:ℝ)..T, F ((-T : ℝ) + y * I)) := by
        linear_combination rect
      rw [eq]
      have n : ‖(∫ x in (-T)..T, F (x + T * I)) - I • (∫ y in (0:ℝ)..T, F (T + y * I)) +
          I • (∫ y in (0:ℝ)..T, F ((-T : ℝ) + y * I))‖ ≤ C * ((1 + T) ^ 2)⁻¹ * (4 * T) := by
        refine (norm_add_le _ _).trans ((add_le_add (norm_sub_le _ _) le_rfl).trans ?_)
        rw [norm_smul, norm_smul, norm_I, one_mul, one_mul]
        have e1 : |T - -T| = 2 * T := by rw [abs_of_pos (by linarith)]; ring
        have e2 : |T - 0| = T := by rw [sub_zero, abs_of_pos hT]
        rw [e1] at b1; rw [e2] at b2a b2b
        linarith
      refine n.trans ?_
      have : C * ((1 + T) ^ 2)⁻¹ * (4 * T) = 4 * C * (1 + T)⁻¹ * (T * (1 + T)⁻¹) := by
        rw [pow_two, mul_inv]; ring
      rw [this]
      refine mul_le_of_le_one_right (by positivity) ?_
      rw [← div_eq_mul_inv, div_le_one (by positivity)]
      linarith
    · intro z hz
      have : z.im ∈ uIcc (0:ℝ) T := by simpa using hz.2
      rw [uIcc_of_le hT.le] at this
      exact this.1
    · intro z hz
      have : z.im ∈ Ioo (min (0:ℝ) T) (max 0 T) := by simpa using hz.2
      rw [min_eq_left hT.le] at this
      exact this.1
  have z0 : Tendsto (fun T : ℝ => 4 * C * (1 + T)⁻¹) atTop (𝓝 0) := by
    have := (tendsto_inv_atTop_zero.comp (tendsto_atTop_add_const_left atTop (1:ℝ) tendsto_id)).const_mul (4 * C)
    simpa using this
  refine squeeze_zero_norm' ?_ z0
  filter_upwards [eventually_gt_atTop 0] with T hT
  exact bound T hT

/-- The integral of a product of two retarded functions vanishes. -/
theorem Retarded.null_mul {f g : ℝ → ℂ} : Retarded f → Retarded g → Null fun x => f x * g x := by
  rintro ⟨F, C, h1, h2, h3, h4⟩ ⟨G, D, k1, k2, k3, k4⟩
  have := null_of_decay (F := fun z => F z * G z) (C := C * D) (h1.mul k1) (h2.mul k2) fun z hz => by
    rw [norm_mul]
    calc ‖F z‖ * ‖G z‖ * (1 + ‖z‖) ^ 2 = (‖F z‖ * (1 + ‖z‖)) * (‖G z‖ * (1 + ‖z‖)) := by ring
      _ ≤ C * D := mul_le_mul (h4 z hz) (k4 z hz) (by positivity) (le_trans (by positivity) (h4 z hz))
  simpa only [h3, k3] using this

end Verif.Heredity
