import Verif.Skip.Spec
import Verif.Tails.Lemmas
import Mathlib.Tactic.Ring
import Mathlib.Tactic.NormNum
import Mathlib.Tactic.FieldSimp
import Mathlib.Tactic.LinearCombination
import Mathlib.Analysis.SpecialFunctions.Complex.LogDeriv
import Mathlib.MeasureTheory.Integral.IntervalIntegral.FundThmCalculus

namespace Verif.Skip
open Keldysh

/-- Parity of the left and of the right pair of legs, by arithmetic. -/
def pl : Ch → Nat → Bool
  | .a, i => (i / 8 + i) % 2 = 1
  | .p, i => (i / 8 + i / 4) % 2 = 1
  | .t, i => (i / 4 + i) % 2 = 1
def pr : Ch → Nat → Bool
  | .a, i => (i / 2 + i / 4) % 2 = 1
  | .p, i => (i / 2 + i) % 2 = 1
  | .t, i => (i / 2 + i / 8) % 2 = 1

theorem pl_eq (ch : Ch) : ∀ i < 16, decide ((leftRight ch i).1 = 1 ∨ (leftRight ch i).1 = 2) = pl ch i := by
  cases ch <;> decide +kernel
theorem pr_eq (ch : Ch) : ∀ i < 16, decide ((leftRight ch i).2 = 1 ∨ (leftRight ch i).2 = 2) = pr ch i := by
  cases ch <;> decide +kernel

theorem SameClass.val {ch : Ch} {X : Nat → ℂ} (h : SameClass ch X) :
    ∃ f : Bool → Bool → ℂ, f false false = 0 ∧ ∀ i < 16, X i = f (pl ch i) (pr ch i) := by
  obtain ⟨f, h0, h⟩ := h
  refine ⟨f, h0, fun i hi => ?_⟩
  rw [h i hi, pl_eq ch i hi, pr_eq ch i hi]

/-- The two internal components that are left out although they do not vanish point by point. -/
def dropped : Ch → Nat × Nat
  | .p => (6, 9)
  | _ => (3, 12)

theorem range16 : List.range 16 = [0, 1, 2, 3, 4, 5, 6, 7, 8, 9, 10, 11, 12, 13, 14, 15] := by decide

theorem difference {ch : Ch} {L R : Nat → ℂ} (hL : SameClass ch L) (hR : SameClass ch R) {i0 : Nat} (hi : i0 ∈ external ch) :
    ∃ c : ℂ, ∀ (g : ℝ → Prop2 ℂ) (w v : ℝ), contraction ch L R g w i0 v - computed ch L R g w i0 v =
      c * (value (g (freqs ch w v).1) (g (freqs ch w v).2) (dropped ch).1 +
        value (g (freqs ch w v).1) (g (freqs ch w v).2) (dropped ch).2) := by
  obtain ⟨f, f0, hL⟩ := hL.val
  obtain ⟨e, e0, hR⟩ := hR.val
  have key : ∀ k, k ∈ external ch → i0 = k → ∃ c : ℂ, ∀ (P : Nat → ℂ), (∀ i, i ∉ nonZeroBubble → P i = 0) →
      ((List.range 16).map fun i2 => L (indicesSum ch i0 i2).1 * P i2 * R (indicesSum ch i0 i2).2).sum -
      (nonZeroBubble.map fun i2 => summand ch false L R P i0 i2).sum = c * (P (dropped ch).1 + P (dropped ch).2) := by
    rintro k hk rfl
    cases ch <;> simp only [external, List.mem_cons, List.not_mem_nil, or_false] at hk <;> rcases hk with rfl | rfl
    · refine ⟨f true true * e true false, fun P hP => ?_⟩
      have p0 := hP 0 (by decide); have p1 := hP 1 (by decide); have p2 := hP 2 (by decide); have p4 := hP 4 (by decide)
      have p5 := hP 5 (by decide); have p8 := hP 8 (by decide); have p10 := hP 10 (by decide)
      rw [range16]
      norm_num [nonZeroBubble, summand, skip, skipAT, skipP, indicesSum, iKToAlphas, alphasLoop, p0, p1, p2, p4, p5, p8, p10,
        dropped, hL, hR, pl, pr, f0, e0]
      ring
    · refine ⟨f true true * e true true, fun P hP => ?_⟩
      have p0 := hP 0 (by decide); have p1 := hP 1 (by decide); have p2 := hP 2 (by decide); have p4 := hP 4 (by decide)
      have p5 := hP 5 (by decide); have p8 := hP 8 (by decide); have p10 := hP 10 (by decide)
      rw [range16]
      norm_num [nonZeroBubble, summand, skip, skipAT, skipP, indicesSum, iKToAlphas, alphasLoop, p0, p1, p2, p4, p5, p8, p10,
        dropped, hL, hR, pl, pr, f0, e0]
      ring
    · refine ⟨f false true * e true true, fun P hP => ?_⟩
      have p0 := hP 0 (by decide); have p1 := hP 1 (by decide); have p2 := hP 2 (by decide); have p4 := hP 4 (by decide)
      have p5 := hP 5 (by decide); have p8 := hP 8 (by decide); have p10 := hP 10 (by decide)
      rw [range16]
      norm_num [nonZeroBubble, summand, skip, skipAT, skipP, indicesSum, iKToAlphas, alphasLoop, p0, p1, p2, p4, p5, p8, p10,
        dropped, hL, hR, pl, pr, f0, e0]
      ring
    · refine ⟨f true true * e true true, fun P hP => ?_⟩
      have p0 := hP 0 (by decide); have p1 := hP 1 (by decide); have p2 := hP 2 (by decide); have p4 := hP 4 (by decide)
      have p5 := hP 5 (by decide); have p8 := hP 8 (by decide); have p10 := hP 10 (by decide)
      rw [range16]
      norm_num [nonZeroBubble, summand, skip, skipAT, skipP, indicesSum, iKToAlphas, alphasLoop, p0, p1, p2, p4, p5, p8, p10,
        dropped, hL, hR, pl, pr, f0, e0]
      ring
    · refine ⟨f true true * e true false, fun P hP => ?_⟩
      have p0 := hP 0 (by decide); have p1 := hP 1 (by decide); have p2 := hP 2 (by decide); have p4 := hP 4 (by decide)
      have p5 := hP 5 (by decide); have p8 := hP 8 (by decide); have p10 := hP 10 (by decide)
      rw [range16]
      norm_num [nonZeroBubble, summand, skip, skipAT, skipP, indicesSum, iKToAlphas, alphasLoop, p0, p1, p2, p4, p5, p8, p10,
        dropped, hL, hR, pl, pr, f0, e0]
      ring
    · refine ⟨f true true * e true true, fun P hP => ?_⟩
      have p0 := hP 0 (by decide); have p1 := hP 1 (by decide); have p2 := hP 2 (by decide); have p4 := hP 4 (by decide)
      have p5 := hP 5 (by decide); have p8 := hP 8 (by decide); have p10 := hP 10 (by decide)
      rw [range16]
      norm_num [nonZeroBubble, summand, skip, skipAT, skipP, indicesSum, iKToAlphas, alphasLoop, p0, p1, p2, p4, p5, p8, p10,
        dropped, hL, hR, pl, pr, f0, e0]
      ring
  have hz : ∀ (g : ℝ → Prop2 ℂ) (w v : ℝ), ∀ i, i ∉ nonZeroBubble →
      value (g (freqs ch w v).1) (g (freqs ch w v).2) i = 0 := by
    intro g w v i hi
    unfold value
    split <;> first | rfl | (exact absurd (by decide) hi)
  obtain ⟨c, hc⟩ := key i0 hi rfl
  exact ⟨c, fun g w v => hc _ (hz g w v)⟩

/-- The quotient of two points of the upper half plane is not a negative number. -/
theorem ratio_slit {a b : ℂ} (ha : 0 < a.im) (hb : 0 < b.im) : a / b ∈ Complex.slitPlane := by
  have hb0 : b ≠ 0 := by rintro rfl; simp at hb
  by_contra h
  have h := Complex.mem_slitPlane_iff.not.mp h
  push Not at h
  obtain ⟨h1, h2⟩ := h
  have : a = ((a / b).re : ℂ) * b := by
    have e : (a / b) = ((a / b).re : ℂ) := by
      apply Complex.ext <;> simp [h2]
    rw [← e, div_mul_cancel₀ _ hb0]
  have h3 : a.im = (a / b).re * b.im := by
    conv_lhs => rw [this]
    rw [Complex.im_ofReal_mul]
  nlinarith

open Filter Topology

theorem im_shift {a : ℂ} (ha : 0 < a.im) (v : ℝ) : 0 < ((v : ℂ) + a).im := by simpa using ha

theorem shift_ne {a : ℂ} (ha : 0 < a.im) (v : ℝ) : (v : ℂ) + a ≠ 0 := by
  intro h
  have := im_shift ha v
  rw [h] at this
  simp at this

theorem tendsto_inv_neg (a : ℂ) : Tendsto (fun v : ℝ => (((-v : ℝ) : ℂ) + a)⁻¹) atTop (𝓝 0) := by
  have h := (Tails.tendsto_inv_add (-a)).neg
  rw [neg_zero] at h
  refine h.congr fun v => ?_
  rw [← inv_neg]
  congr 1
  push_cast
  ring

theorem continuous_product {a b : ℂ} (ha : 0 < a.im) (hb : 0 < b.im) :
    Continuous fun v : ℝ => (((v : ℂ) + a) * ((v : ℂ) + b))⁻¹ := by
  refine Continuous.inv₀ (by fun_prop) fun v => mul_ne_zero (shift_ne ha v) (shift_ne hb v)

/-- A product of two poles on the same side integrates to zero. -/
theorem upper_product {a b : ℂ} (ha : 0 < a.im) (hb : 0 < b.im) :
    Tendsto (fun l : ℝ => ∫ v in (-l)..l, (((v : ℂ) + a) * ((v : ℂ) + b))⁻¹) atTop (𝓝 0) := by
  by_cases hab : a = b
  · subst hab
    have hd : ∀ v : ℝ, HasDerivAt (fun v : ℝ => -((v : ℂ) + a)⁻¹) ((((v : ℂ) + a) * ((v : ℂ) + a))⁻¹) v := by
      intro v
      have := ((Tails.hasDerivAt_shift a v).inv (shift_ne ha v)).neg
      refine this.congr_deriv ?_
      have := shift_ne ha v
      field_simp
    have hi : ∀ l : ℝ, ∫ v in (-l)..l, (((v : ℂ) + a) * ((v : ℂ) + a))⁻¹ =
        -((l : ℂ) + a)⁻¹ - -(((-l : ℝ) : ℂ) + a)⁻¹ := fun l =>
      intervalIntegral.integral_eq_sub_of_hasDerivAt (fun v _ => hd v) ((continuous_product ha ha).intervalIntegrable _ _)
    simp only [hi]
    simpa using (Tails.tendsto_inv_add a).neg.sub (tendsto_inv_neg a).neg
  · have hne : b - a ≠ 0 := sub_ne_zero.mpr (Ne.symm hab)
    have hd : ∀ v : ℝ, HasDerivAt (fun v : ℝ => Complex.log (((v : ℂ) + a) / ((v : ℂ) + b)) / (b - a))
        ((((v : ℂ) + a) * ((v : ℂ) + b))⁻¹) v := by
      intro v
      have h1 := (Tails.hasDerivAt_shift a v).div (Tails.hasDerivAt_shift b v) (shift_ne hb v)
      have h2 := (h1.clog_real (ratio_slit (im_shift ha v) (im_shift hb v))).div_const (b - a)
      refine h2.congr_deriv ?_
      have := shift_ne ha v
      have := shift_ne hb v
      simp only [Pi.div_apply]
      field_simp
      ring
    have hi : ∀ l : ℝ, ∫ v in (-l)..l, (((v : ℂ) + a) * ((v : ℂ) + b))⁻¹ =
        Complex.log (((l : ℂ) + a) / ((l : ℂ) + b)) / (b - a) -
          Complex.log ((((-l : ℝ) : ℂ) + a) / (((-l : ℝ) : ℂ) + b)) / (b - a) := fun l =>
      intervalIntegral.integral_eq_sub_of_hasDerivAt (fun v _ => hd v) ((continuous_product ha hb).intervalIntegrable _ _)
    have hr : ∀ v : ℝ, ((v : ℂ) + a) / ((v : ℂ) + b) = 1 + (a - b) * ((v : ℂ) + b)⁻¹ := by
      intro v
      have := shift_ne hb v
      field_simp
      ring
    have t1 : Tendsto (fun l : ℝ => ((l : ℂ) + a) / ((l : ℂ) + b)) atTop (𝓝 1) := by
      simp only [hr]
      simpa using ((Tails.tendsto_inv_add b).const_mul (a - b)).const_add 1
    have t2 : Tendsto (fun l : ℝ => (((-l : ℝ) : ℂ) + a) / (((-l : ℝ) : ℂ) + b)) atTop (𝓝 1) := by
      have : ∀ l : ℝ, (((-l : ℝ) : ℂ) + a) / (((-l : ℝ) : ℂ) + b) = 1 + (a - b) * (((-l : ℝ) : ℂ) + b)⁻¹ := fun l => hr (-l)
      simp only [this]
      simpa using ((tendsto_inv_neg b).const_mul (a - b)).const_add 1
    have hc : ContinuousAt Complex.log 1 := continuousAt_clog (by simp)
    have l1 := (hc.tendsto.comp t1).div_const (b - a)
    have l2 := (hc.tendsto.comp t2).div_const (b - a)
    simp only [hi]
    simpa using l1.sub l2

end Verif.Skip
