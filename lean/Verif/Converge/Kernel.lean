import Verif.Weak.Lemmas

/-! The function that bounds the propagators, and the integrals over one and two of them. -/
namespace Verif.Converge
open Verif.Heredity MeasureTheory
open Verif.Freqs (Ch)

/-- Decay of a propagator of width `h` around the energy `e`. -/
noncomputable def rho (h e x : ℝ) : ℝ := (1 + |(x - e) / h|)⁻¹

theorem rho_pos (h e x : ℝ) : 0 < rho h e x := by unfold rho; positivity

theorem rho_le (h e x : ℝ) : rho h e x ≤ 1 := inv_le_one_of_one_le₀ (by linarith [abs_nonneg ((x - e) / h)])

theorem rho_cont (h e : ℝ) : Continuous (rho h e) := by
  unfold rho
  refine Continuous.inv₀ (by fun_prop) fun x => ?_
  positivity

/-- The integral of the decaying function to the power `a`, in units of the width. -/
noncomputable def total (a : ℝ) : ℝ := ∫ s : ℝ, (1 + ‖s‖) ^ (-a)

theorem total_nonneg (a : ℝ) : 0 ≤ total a := integral_nonneg fun s => by positivity

variable {h : ℝ}

theorem scaled {a : ℝ} (ha : 1 < a) (hh : 0 < h) (e : ℝ) :
    Integrable (fun x : ℝ => (1 + ‖(x - e) / h‖) ^ (-a)) ∧ ∫ x : ℝ, (1 + ‖(x - e) / h‖) ^ (-a) = h * total a := by
  have i : Integrable fun x : ℝ => (1 + ‖x‖) ^ (-a) := integrable_one_add_norm (by simpa using ha)
  refine ⟨(i.comp_div hh.ne').comp_sub_right e, ?_⟩
  rw [integral_sub_right_eq_self (fun x : ℝ => (1 + ‖x / h‖) ^ (-a)) e, Measure.integral_comp_div (fun x : ℝ => (1 + ‖x‖) ^ (-a)) h,
    abs_of_pos hh, smul_eq_mul, total]

/-- The transfer frequency of a bubble in units of the width, measured from the energy of the level. -/
noncomputable def away (h e : ℝ) (c : Ch) (ν : Fin 4 → ℝ) : ℝ :=
  match c with
  | .a => (ν 3 - ν 0) / h
  | .p => (ν 0 + ν 1 - 2 * e) / h
  | .t => (ν 3 - ν 1) / h

/-- How a bubble decays with its transfer frequency. -/
noncomputable def fall (h e : ℝ) (c : Ch) (ν : Fin 4 → ℝ) : ℝ := ((1 + |away h e c ν|)⁻¹) ^ (1 / 4 : ℝ)

theorem fall_nonneg (h e : ℝ) (c : Ch) (ν : Fin 4 → ℝ) : 0 ≤ fall h e c ν := by unfold fall; positivity

theorem fall_le (h e : ℝ) (c : Ch) (ν : Fin 4 → ℝ) : fall h e c ν ≤ 1 :=
  Real.rpow_le_one (by positivity) (inv_le_one_of_one_le₀ (by linarith [abs_nonneg (away h e c ν)])) (by norm_num)

theorem away_le (e : ℝ) (c : Ch) (ν : Fin 4 → ℝ) (x : ℝ) :
    |away h e c ν| ≤ |((lineE c ν x).1 - e) / h| + |((lineE c ν x).2 - e) / h| := by
  cases c <;> simp only [away, lineE]
  · have := abs_sub ((x + (ν 3 - ν 0) / 2 - e) / h) ((x - (ν 3 - ν 0) / 2 - e) / h)
    rw [show (x + (ν 3 - ν 0) / 2 - e) / h - (x - (ν 3 - ν 0) / 2 - e) / h = (ν 3 - ν 0) / h by ring] at this
    linarith
  · have := abs_add_le ((x + (ν 0 + ν 1) / 2 - e) / h) ((-x + (ν 0 + ν 1) / 2 - e) / h)
    rwa [show (x + (ν 0 + ν 1) / 2 - e) / h + (-x + (ν 0 + ν 1) / 2 - e) / h = (ν 0 + ν 1 - 2 * e) / h by ring] at this
  · have := abs_sub ((x + (ν 3 - ν 1) / 2 - e) / h) ((x - (ν 3 - ν 1) / 2 - e) / h)
    rw [show (x + (ν 3 - ν 1) / 2 - e) / h - (x - (ν 3 - ν 1) / 2 - e) / h = (ν 3 - ν 1) / h by ring] at this
    linarith

theorem lines_meas (c : Ch) (ν : Fin 4 → ℝ) : (Continuous fun x => (lineE c ν x).1) ∧ Continuous fun x => (lineE c ν x).2 := by
  cases c <;> simp only [lineE] <;> constructor <;> fun_prop

/-- The integral over a pair of decaying functions. -/
theorem pair_kernel (hh : 0 < h) (e : ℝ) (c : Ch) (ν : Fin 4 → ℝ) :
    Integrable (fun x => rho h e (lineE c ν x).1 * rho h e (lineE c ν x).2) ∧
    ∫ x, rho h e (lineE c ν x).1 * rho h e (lineE c ν x).2 ≤ 2 * total (3 / 2) * h * fall h e c ν := by
  have S : ∀ f : ℝ → ℝ, (∃ s, ∀ x, ‖(f x - e) / h‖ = ‖(x - s) / h‖) →
      Integrable (fun x => (1 + ‖(f x - e) / h‖) ^ (-(3 / 2) : ℝ)) ∧ ∫ x, (1 + ‖(f x - e) / h‖) ^ (-(3 / 2) : ℝ) = h * total (3 / 2) := by
    rintro f ⟨s, hs⟩
    simp only [hs]
    exact scaled (by norm_num) hh s
  have s1 : ∃ s, ∀ x, ‖((lineE c ν x).1 - e) / h‖ = ‖(x - s) / h‖ := by
    cases c <;> simp only [lineE]
    · exact ⟨(ν 3 - ν 0) / 2 + e, fun x => by congr 2; ring⟩
    · exact ⟨e - (ν 0 + ν 1) / 2, fun x => by congr 2; ring⟩
    · exact ⟨(ν 3 - ν 1) / 2 + e, fun x => by congr 2; ring⟩
  have s2 : ∃ s, ∀ x, ‖((lineE c ν x).2 - e) / h‖ = ‖(x - s) / h‖ := by
    cases c <;> simp only [lineE]
    · exact ⟨e - (ν 3 - ν 0) / 2, fun x => by congr 2; ring⟩
    · exact ⟨(ν 0 + ν 1) / 2 - e, fun x => by rw [← norm_neg]; congr 1; ring⟩
    · exact ⟨e - (ν 3 - ν 1) / 2, fun x => by congr 2; ring⟩
  obtain ⟨i1, t1⟩ := S _ s1
  obtain ⟨i2, t2⟩ := S _ s2
  have le : ∀ x, rho h e (lineE c ν x).1 * rho h e (lineE c ν x).2 ≤
      fall h e c ν * ((1 + ‖((lineE c ν x).1 - e) / h‖) ^ (-(3 / 2) : ℝ) + (1 + ‖((lineE c ν x).2 - e) / h‖) ^ (-(3 / 2) : ℝ)) :=
    fun x => Weak.split_point _ _ _ (away_le e c ν x)
  have g := (i1.add i2).const_mul (fall h e c ν)
  have pos : ∀ x, 0 ≤ rho h e (lineE c ν x).1 * rho h e (lineE c ν x).2 := fun x => mul_nonneg (rho_pos ..).le (rho_pos ..).le
  refine ⟨g.mono' ?_ (Filter.Eventually.of_forall fun x => ?_), ?_⟩
  · exact (((rho_cont h e).comp (lines_meas c ν).1).mul ((rho_cont h e).comp (lines_meas c ν).2)).aestronglyMeasurable
  · rw [Real.norm_eq_abs, abs_of_nonneg (pos x)]; exact le x
  · refine (integral_mono_of_nonneg (Filter.Eventually.of_forall pos) g (Filter.Eventually.of_forall le)).trans (le_of_eq ?_)
    rw [integral_const_mul]
    have := integral_add i1 i2
    simp only [Pi.add_apply]
    rw [this, t1, t2]
    ring

theorem mix_pow (a b : ℝ) (ha : 0 ≤ a) (hb : 0 ≤ b) :
    ((1 + a)⁻¹) ^ (1 / 4 : ℝ) * (1 + b)⁻¹ ≤ (1 + a) ^ (-(5 / 4) : ℝ) + (1 + b) ^ (-(5 / 4) : ℝ) := by
  have pa : 0 < 1 + a := by positivity
  have pb : 0 < 1 + b := by positivity
  have e : ∀ x : ℝ, 0 < x → x ^ (-(5 / 4) : ℝ) = (x⁻¹) ^ (1 / 4 : ℝ) * x⁻¹ := fun x hx => by
    rw [Real.inv_rpow hx.le, ← Real.rpow_neg hx.le, ← Real.rpow_neg_one x, ← Real.rpow_add hx]
    norm_num
  rw [e _ pa, e _ pb]
  rcases le_total a b with l | l
  · have i : (1 + b)⁻¹ ≤ (1 + a)⁻¹ := inv_anti₀ pa (by linarith)
    have := mul_le_mul_of_nonneg_left i (show 0 ≤ ((1 + a)⁻¹) ^ (1 / 4 : ℝ) by positivity)
    have : 0 ≤ ((1 + b)⁻¹) ^ (1 / 4 : ℝ) * (1 + b)⁻¹ := by positivity
    linarith
  · have i : (1 + a)⁻¹ ≤ (1 + b)⁻¹ := inv_anti₀ pb (by linarith)
    have := mul_le_mul_of_nonneg_right (Real.rpow_le_rpow (by positivity) i (show (0 : ℝ) ≤ 1 / 4 by norm_num)) (show 0 ≤ (1 + b)⁻¹ by positivity)
    have : 0 ≤ ((1 + a)⁻¹) ^ (1 / 4 : ℝ) * (1 + a)⁻¹ := by positivity
    linarith

/-- The integral over a decaying function and the decay of a bubble. -/
theorem loop_kernel (hh : 0 < h) (e : ℝ) (c : Ch) (N : ℝ → Fin 4 → ℝ) (hN : ∃ s, ∀ x, away h e c (N x) = (x - s) / h) :
    Integrable (fun x => fall h e c (N x) * rho h e x) ∧ ∫ x, fall h e c (N x) * rho h e x ≤ 2 * total (5 / 4) * h := by
  obtain ⟨s, hs⟩ := hN
  obtain ⟨i1, t1⟩ := scaled (a := 5 / 4) (by norm_num) hh s
  obtain ⟨i2, t2⟩ := scaled (a := 5 / 4) (by norm_num) hh e
  have le : ∀ x, fall h e c (N x) * rho h e x ≤ (1 + ‖(x - s) / h‖) ^ (-(5 / 4) : ℝ) + (1 + ‖(x - e) / h‖) ^ (-(5 / 4) : ℝ) := fun x => by
    unfold fall rho
    rw [hs]
    exact mix_pow _ _ (abs_nonneg _) (abs_nonneg _)
  have pos : ∀ x, 0 ≤ fall h e c (N x) * rho h e x := fun x => mul_nonneg (fall_nonneg ..) (rho_pos ..).le
  refine ⟨(i1.add i2).mono' ?_ (Filter.Eventually.of_forall fun x => ?_), ?_⟩
  · have : Continuous fun x => fall h e c (N x) := by
      unfold fall
      simp only [hs]
      refine Continuous.rpow_const ?_ fun x => Or.inr (by norm_num)
      refine Continuous.inv₀ (by fun_prop) fun x => ?_
      positivity
    exact (this.mul (rho_cont h e)).aestronglyMeasurable
  · rw [Real.norm_eq_abs, abs_of_nonneg (pos x)]; exact le x
  · refine (integral_mono_of_nonneg (Filter.Eventually.of_forall pos) (i1.add i2) (Filter.Eventually.of_forall le)).trans (le_of_eq ?_)
    have := integral_add i1 i2
    simp only [Pi.add_apply]
    rw [this, t1, t2]
    ring

end Verif.Converge
