import Verif.Filling.Model
import Verif.Filling.Sum
import Verif.Quad.PropsT0
import Verif.Propagator.PropsDistr
import Verif.Propagator.PropsMatsubara

/-
The integrands of the occupation in closed form, and the pieces the integrator covers.
-/
namespace Verif.Filling

open Propagator MeasureTheory Real

/-! ### The distributions -/

theorem fermi_eq_nTanh {T : ℝ} (hT : 0 < T) (x : ℝ) : fermi T x = nTanh T x := by
  have h := (c76_distribution x 0 T 0 hT).2.2.2.2.2.1
  unfold fermiDistribution fermiDistr at h
  unfold fermi nTanh
  rw [h, sub_zero]
  norm_num

/-- A distribution: measurable, a probability, not increasing, and with as many particles above zero as holes below. -/
structure Distribution (nF : ℝ → ℝ) : Prop where
  meas : Measurable nF
  nonneg : ∀ x, 0 ≤ nF x
  le_one : ∀ x, nF x ≤ 1
  anti : ∀ x y, x ≤ y → nF y ≤ nF x
  symm : ∀ x, nF (-x) = 1 - nF x

theorem fermi_strict {T : ℝ} (hT : 0 < T) (x y : ℝ) (h : x < y) : fermi T y < fermi T x := by
  unfold fermi
  refine one_div_lt_one_div_of_lt (by positivity) ?_
  have : Real.exp (x / T) < Real.exp (y / T) := Real.exp_lt_exp.2 (div_lt_div_of_pos_right h hT)
  linarith

theorem distribution_fermi {T : ℝ} (hT : 0 < T) : Distribution (fermi T) := by
  have e : fermi T = nTanh T := funext (fermi_eq_nTanh hT)
  refine ⟨e ▸ measurable_nTanh T, fun x => e ▸ (nTanh_pos T x).le, fun x => e ▸ (nTanh_lt_one T x).le, ?_,
    fun x => e ▸ nTanh_symm T x⟩
  intro x y h
  rcases h.eq_or_lt with rfl | h
  · exact le_rfl
  · exact (fermi_strict hT x y h).le

theorem distribution_fermi0 : Distribution fermi0 := by
  have h0 : ∀ x, 0 < x → fermi0 x = 0 := fun x h => by simp [fermi0, h]
  have h1 : ∀ x, x < 0 → fermi0 x = 1 := fun x h => by simp [fermi0, h.ne, not_lt.2 h.le]
  have h2 : fermi0 0 = 1 / 2 := by simp [fermi0]
  refine ⟨?_, fun x => ?_, fun x => ?_, fun x y h => ?_, fun x => ?_⟩
  · unfold fermi0
    refine Measurable.ite measurableSet_Ioi measurable_const (Measurable.ite ?_ measurable_const measurable_const)
    exact measurableSet_eq
  · unfold fermi0; split_ifs <;> norm_num
  · unfold fermi0; split_ifs <;> norm_num
  · rcases lt_trichotomy x 0 with hx | rfl | hx
    · rw [h1 x hx]; unfold fermi0; split_ifs <;> norm_num
    · rcases h.eq_or_lt with rfl | hy
      · exact le_rfl
      · rw [h0 y hy, h2]; norm_num
    · rw [h0 x hx, h0 y (hx.trans_le h)]
  · rcases lt_trichotomy x 0 with hx | rfl | hx
    · rw [h1 x hx, h0 (-x) (by linarith)]; norm_num
    · rw [neg_zero, h2]; norm_num
    · rw [h0 x hx, h1 (-x) (by linarith)]; norm_num

/-! ### The integrands -/

theorem gR_hyb (p : Par) (h nu : ℝ) :
    gR .hyb (atFreq p nu) (constSE h) = 1 / (((nu - (p.eps + h) : ℝ) : ℂ) + Complex.I * (width p : ℝ)) := by
  simp only [gR, gR2, g0Rinv, atFreq, constSE, width]
  congr 1
  push_cast
  ring

theorem normSq_level (x D : ℝ) : Complex.normSq ((x : ℂ) + Complex.I * (D : ℝ)) = x ^ 2 + D ^ 2 := by
  rw [Complex.normSq_apply]; simp; ring

theorem gR_im (p : Par) (h nu : ℝ) :
    (gR .hyb (atFreq p nu) (constSE h)).im = -(width p / ((nu - (p.eps + h)) ^ 2 + width p ^ 2)) := by
  rw [gR_hyb, one_div, Complex.inv_im, normSq_level]
  simp [neg_div]

theorem sR_im (p : Par) (h nu : ℝ) (hD : 0 < width p) :
    (sR .hyb (atFreq p nu) (constSE h)).im =
      1 / 2 * ((width p ^ 2 - (nu - (p.eps + h)) ^ 2) / ((nu - (p.eps + h)) ^ 2 + width p ^ 2) ^ 2) := by
  have e : sR .hyb (atFreq p nu) (constSE h) = -0.5 * Complex.I * gR .hyb (atFreq p nu) (constSE h) *
    gR .hyb (atFreq p nu) (constSE h) := rfl
  rw [e, gR_hyb]
  generalize nu - (p.eps + h) = x
  have hn : x ^ 2 + width p ^ 2 ≠ 0 := by positivity
  have e2 : (1 : ℂ) / ((x : ℂ) + Complex.I * (width p : ℝ)) =
      ((x / (x ^ 2 + width p ^ 2) : ℝ) : ℂ) + Complex.I * ((-(width p / (x ^ 2 + width p ^ 2)) : ℝ) : ℂ) := by
    rw [one_div]
    apply Complex.ext
    · rw [Complex.inv_re, normSq_level, Complex.add_re, Complex.add_re, Complex.I_mul_re, Complex.I_mul_re,
        Complex.ofReal_re, Complex.ofReal_re, Complex.ofReal_im, Complex.ofReal_im]
      ring
    · rw [Complex.inv_im, normSq_level, Complex.add_im, Complex.add_im, Complex.I_mul_im, Complex.I_mul_im,
        Complex.ofReal_re, Complex.ofReal_re, Complex.ofReal_im, Complex.ofReal_im]
      ring
  rw [e2]
  generalize hA : x / (x ^ 2 + width p ^ 2) = A
  generalize hB : width p / (x ^ 2 + width p ^ 2) = B
  have e3 : (-0.5 * Complex.I * ((A : ℂ) + Complex.I * ((-B : ℝ) : ℂ)) * ((A : ℂ) + Complex.I * ((-B : ℝ) : ℂ))).im
      = 1 / 2 * (B ^ 2 - A ^ 2) := by
    have : (-0.5 * Complex.I * ((A : ℂ) + Complex.I * ((-B : ℝ) : ℂ)) * ((A : ℂ) + Complex.I * ((-B : ℝ) : ℂ))) =
        ((-(A * B) : ℝ) : ℂ) + Complex.I * ((1 / 2 * (B ^ 2 - A ^ 2) : ℝ) : ℂ) := by
      push_cast
      linear_combination ((A:ℂ) * B - Complex.I * B ^ 2 / 2) * Complex.I_sq
    rw [this, Complex.add_im, Complex.I_mul_im, Complex.ofReal_re, Complex.ofReal_im, zero_add]
  rw [e3, ← hA, ← hB]
  field_simp

/-! ### The integrator -/

/-- The intervals exist as soon as two of the points differ. -/
theorem intervals_defined (vmin vmax wHalf : ℝ) (freqs : List ℝ) (a b : ℝ)
    (ha : a ∈ Quad.pointsT0 vmin vmax wHalf freqs) (hb : b ∈ Quad.pointsT0 vmin vmax wHalf freqs) (hab : a ≠ b) :
    ∃ cells, Quad.intervalsT0 vmin vmax wHalf freqs = .ok cells := by
  have key : ∀ (w : ℝ) (s : Nat → ℝ) (n : Nat), (List.range n).foldl (Quad.stepT0 w s) [] = [] →
      ∀ i, i ≤ n → s i = s 0 := by
    intro w s n
    induction n with
    | zero => intro _ i hi; rw [Nat.le_zero.1 hi]
    | succ n ih =>
      intro h i hi
      rw [List.range_succ, List.foldl_append] at h
      simp only [List.foldl_cons, List.foldl_nil] at h
      have h0 : s n = s (n + 1) ∧ (List.range n).foldl (Quad.stepT0 w s) [] = [] := by
        by_contra hc
        unfold Quad.stepT0 at h
        by_cases hs : s n = s (n + 1)
        · rw [if_neg (not_not.2 hs)] at h
          exact hc ⟨hs, h⟩
        · rw [if_pos hs] at h
          split at h <;> simp at h
      rcases Nat.lt_or_ge i (n + 1) with hlt | hge
      · exact ih h0.2 i (by omega)
      · rw [show i = n + 1 by omega, ← h0.1]; exact ih h0.2 n le_rfl
  unfold Quad.intervalsT0
  extract_lets cells
  split
  · rename_i hc
    exfalso
    have hk := key _ _ _ hc
    obtain ⟨i, hi, rfl⟩ := (Quad.sorted_mem vmin vmax wHalf freqs a).mp ha
    obtain ⟨j, hj, rfl⟩ := (Quad.sorted_mem vmin vmax wHalf freqs b).mp hb
    exact hab ((hk i hi).trans (hk j hj).symm)
  · exact ⟨_, rfl⟩

/-- The integrator over all pieces returns the integral over the line up to the cuts around `±wHalf`. -/
theorem integrateAll_accuracy (f : ℝ → ℝ) (hf : Integrable f) (M : ℝ) (hM : ∀ x, |f x| ≤ M) (D wHalf : ℝ)
    (hne : 0 < D) :
    ∃ r, integrateAll f D wHalf = .ok r ∧ |r - ∫ x, f x| ≤ 12 / 10 ^ 10 * M := by
  have hab : 10 * D ≠ -10 * D := by intro h; linarith
  obtain ⟨cells, hc⟩ := intervals_defined (10 * D) (-10 * D) wHalf [0] (10 * D) (-10 * D)
    (by unfold Quad.pointsT0; split <;> simp) (by unfold Quad.pointsT0; split <;> simp) hab
  obtain ⟨r, hr⟩ : ∃ r, integrateAll f D wHalf = .ok r := by
    unfold integrateAll Quad.integrateT0
    rw [hc]
    exact ⟨_, rfl⟩
  refine ⟨r, hr, ?_⟩
  have hii : ∀ a b : ℝ, IntervalIntegrable f volume a b := fun a b => hf.intervalIntegrable
  have hsub : ∀ a b : ℝ, below f b - below f a = cell f a b := fun a b =>
    intervalIntegral.integral_Iic_sub_Iic hf.integrableOn hf.integrableOn
  have hsplit : ∀ a, below f a + above f a = ∫ x, f x := fun a => by
    unfold below above
    exact intervalIntegral.integral_Iic_add_Ioi hf.integrableOn hf.integrableOn
  have h := Quad.c87_accuracy (E := ℝ) (below f) 0 (∫ x, f x) M ?_ (cell f) (below f) (above f)
    (fun x y _ => (hsub x y).symm) (fun x => (sub_zero _).symm) (fun x => by rw [← hsplit x]; ring)
    (10 * D) (-10 * D) wHalf [0] r hr
  · rw [Real.norm_eq_abs, sub_zero] at h
    refine h.trans (le_of_eq ?_)
    unfold Quad.tolT0
    norm_num
    ring
  · intro x y
    rw [hsub, Real.norm_eq_abs]
    unfold cell
    have := intervalIntegral.norm_integral_le_of_norm_le_const (a := y) (b := x) (f := f) (C := M)
      (fun z _ => by rw [Real.norm_eq_abs]; exact hM z)
    simpa using this

end Verif.Filling
