import Verif.Fdt.Props
import Mathlib.Analysis.SpecialFunctions.Trigonometric.DerivHyp

/-
C113: the relations at vanishing transfer frequency used for slices of the full vertex.
C114: components set to zero at zero temperature.
-/
namespace Verif.Fdt
open Freqs (Ch)

/-- Exchange of the third and the fourth leg. -/
def swapLegs (V : Contour) : Contour := fun a b c d => V a b d c

theorem swap_thermal {T ν1 ν2 ν3 ν4 : ℝ} {V : Contour} (h : Thermal T ν1 ν2 ν3 ν4 V) :
    Thermal T ν1 ν2 ν4 ν3 (swapLegs V) where
  kms := by
    intro a b c d
    have := h.kms a b d c
    simp only [swapLegs]
    rw [this]; ring
  causal := by
    have := h.causal
    simp only [Fintype.sum_bool, swapLegs] at this ⊢
    linear_combination this

/-- The relation for the component with three indices 1. -/
theorem three_ones {T ν1 ν2 ν3 ν4 : ℝ} (hs : ν1 + ν2 + ν3 + ν4 = 0) {V : Contour} (h : Thermal T ν1 ν2 ν3 ν4 V) :
    component V 1 = four123 (fac ν1 T) (fac ν2 T) (fac ν3 T) (component V 7) (component V 11) (component V 13)
      (component V 14) (component V 3) (component V 5) (component V 9) := by
  have hc : ∀ a b c d, cc (V a b c d) = -(bz (weight T ν1 true) a * bz (weight T ν2 true) b *
      bz (weight T ν3 true) c * bz (weight T ν4 true) d) * V (!a) (!b) (!c) (!d) := by
    intro a b c d
    rw [← weight_bz, ← weight_bz, ← weight_bz, ← weight_bz]; exact h.kms a b c d
  rw [alg123 (V := V) (Vc := fun a b c d => cc (V a b c d)) (weight_prod T _ _ _ _ hs) (fac_weight T _) (fac_weight T _)
    (fac_weight T _) (weight_ne T _) (weight_ne T _) (weight_ne T _) hc h.causal (conj_causal h)]
  simp only [four123, cc_component]

theorem herm_component {V : Contour} (h : Hermitian V) :
    cc (component V 7) = component V 13 ∧ cc (component V 11) = component V 14 ∧ cc (component V 5) = -component V 5 ∧
    cc (component V 10) = -component V 10 ∧ cc (component V 6) = -component V 9 ∧ cc (component V 3) = -component V 12 ∧
    cc (component V 1) = component V 4 ∧ cc (component V 2) = component V 8 ∧ cc (component V 0) = -component V 0 := by
  have hh : ∀ a b c d, cc (V a b c d) = -V (!c) (!d) (!a) (!b) := h
  refine ⟨?_, ?_, ?_, ?_, ?_, ?_, ?_, ?_, ?_⟩ <;>
  · rw [cc_component]
    simp only [component, hh]
    simp [Fintype.sum_bool, turn]
    ring

theorem im_of_imag {z : ℂ} (h : cc z = -z) : z = Complex.I * (z.im : ℝ) := by
  have : z.re = 0 := by
    have := congrArg Complex.re h
    simp at this; linarith
  apply Complex.ext <;> simp [this]

theorem alg5 {x y N1 N2 : ℂ} (x0 : x ≠ 0) (y0 : y ≠ 0) (hx : x ≠ 1) (hy : y ≠ 1)
    (h1 : N1 * (x - 1) = x + 1) (h2 : N2 * (y - 1) = y + 1) {V Vc : Contour}
    (hc : ∀ a b c d, Vc a b c d = -(bz x a * bz y b * bz x⁻¹ c * bz y⁻¹ d) * V (!a) (!b) (!c) (!d))
    (hr : ∀ a b c d, Vc a b c d = -V (!c) (!d) (!a) (!b))
    (S : ∑ a, ∑ b, ∑ c, ∑ d, V a b c d = 0) (r : ℂ) (hr' : r * (1 - N2 ^ 2) = 1 - N1 ^ 2) :
    component V 5 = r * component V 10 + N1 * (component V 7 - component Vc 7)
      - N2 * r * (component V 11 - component Vc 11) := by
  have hx' : x - 1 ≠ 0 := sub_ne_zero.2 hx
  have hy' : y - 1 ≠ 0 := sub_ne_zero.2 hy
  have e1 : N1 = (x + 1) / (x - 1) := by field_simp; linear_combination h1
  have e2 : N2 = (y + 1) / (y - 1) := by field_simp; linear_combination h2
  have er : r = x * (y - 1) ^ 2 / (y * (x - 1) ^ 2) := by
    rw [e1, e2] at hr'
    have k1 : (1 : ℂ) - ((y + 1) / (y - 1)) ^ 2 = -4 * y / (y - 1) ^ 2 := by field_simp; ring
    have k2 : (1 : ℂ) - ((x + 1) / (x - 1)) ^ 2 = -4 * x / (x - 1) ^ 2 := by field_simp; ring
    rw [k1, k2] at hr'
    field_simp at hr' ⊢
    linear_combination -hr'
  -- relations between exchanged branches
  have q : ∀ a b c d, V c d a b = bz x (!a) * bz y (!b) * bz x⁻¹ (!c) * bz y⁻¹ (!d) * V a b c d := by
    intro a b c d
    have := (hc (!a) (!b) (!c) (!d)).symm.trans (hr (!a) (!b) (!c) (!d))
    simp only [Bool.not_not] at this
    linear_combination this
  have q1 := q false false false true
  have q2 := q false false true false
  have q3 := q false false true true
  have q6 := q false true true false
  have q7 := q false true true true
  have q11 := q true false true true
  simp only [component, hr]
  simp [Fintype.sum_bool, bz, turn] at S q1 q2 q3 q6 q7 q11 ⊢
  rw [q1, q2, q3, q6, q7, q11] at S ⊢
  generalize V true true true true = v15 at *
  generalize V true false true true = v11 at *
  generalize V true false true false = v10 at *
  generalize V false true true true = v7 at *
  generalize V false true true false = v6 at *
  generalize V false true false true = v5 at *
  generalize V false false true true = v3 at *
  generalize V false false true false = v2 at *
  generalize V false false false true = v1 at *
  generalize V false false false false = v0 at *
  rw [← sub_eq_zero]
  have key := congrArg (((1 - r) / 4) * ·) S
  simp only [mul_zero] at key
  rw [← key, er, e1, e2]
  field_simp
  ring


theorem cosh_tanh (y : ℝ) : (Real.cosh y) ^ 2 * (1 - (Real.tanh y) ^ 2) = 1 := by
  rw [Real.tanh_eq_sinh_div_cosh]
  have := Real.cosh_pos y
  have k := Real.cosh_sq y
  field_simp
  linarith

theorem fac_neg (ν T : ℝ) : fac (-ν) T = -fac ν T := by
  unfold fac Propagator.fermiFac
  rw [← Real.tanh_neg]; congr 1; ring

/-- **C113**: at vanishing transfer frequency in the transverse channel all sixteen components of a vertex in thermal
equilibrium are returned unchanged. -/
theorem c113_slices (T v vp : ℝ) (hT : 0 < T) (V : Contour) (hh : Hermitian V)
    (h : ThermalIn .t T 0 v vp V) (iK : Nat) : slice T v vp (component V) iK = component V iK := by
  obtain ⟨g7, g11, g5, g10, g6, g3, g1, g2, g0⟩ := herm_component hh
  have h' : Thermal T vp v (-vp) (-v) V := by
    have := h
    simpa [ThermalIn, leg] using this
  have i5 := im_of_imag g5
  have i10 := im_of_imag g10
  have im2 : ∀ z : ℂ, (2 : ℂ) * Complex.I * (z.im : ℝ) = z - cc z := by
    intro z
    have := Complex.sub_conj z
    simp only [cc]
    rw [this]; push_cast; ring
  have g9 : component V 9 = -cc (component V 6) := by rw [g6]; ring
  have g12 : component V 12 = -cc (component V 3) := by rw [g3]; ring
  have im_neg_cc : ∀ z : ℂ, (-cc z).im = z.im := by intro z; simp
  have tv : Real.tanh ((v - 0) / (2 * T)) = fac v T := rfl
  have tvp : Real.tanh ((vp - 0) / (2 * T)) = fac vp T := rfl
  -- component 1
  have r1 : slice T v vp (component V) 1 = component V 1 := by
    rw [three_ones (by ring) h']
    simp only [slice, four123, tv, tvp]
    rw [fac_neg, ← g11, ← g7, show cc (cc (component V 11)) = component V 11 from Complex.conj_conj _]
    push_cast
    linear_combination ((fac v T : ℝ) : ℂ) * ((fac vp T : ℝ) : ℂ) * im2 (component V 7) + ((fac v T : ℝ) : ℂ) * i5
  have r2 : slice T v vp (component V) 2 = component V 2 := by
    have e : component V 2 = component (swapLegs V) 1 := by
      simp [component, Fintype.sum_bool, turn, swapLegs]; ring
    have e7 : component (swapLegs V) 7 = component V 7 := by simp [component, Fintype.sum_bool, turn, swapLegs]; ring
    have e11 : component (swapLegs V) 11 = component V 11 := by simp [component, Fintype.sum_bool, turn, swapLegs]; ring
    have e13 : component (swapLegs V) 13 = component V 14 := by simp [component, Fintype.sum_bool, turn, swapLegs]; ring
    have e14 : component (swapLegs V) 14 = component V 13 := by simp [component, Fintype.sum_bool, turn, swapLegs]; ring
    have e3 : component (swapLegs V) 3 = component V 3 := by simp [component, Fintype.sum_bool, turn, swapLegs]; ring
    have e5 : component (swapLegs V) 5 = component V 6 := by simp [component, Fintype.sum_bool, turn, swapLegs]; ring
    have e9 : component (swapLegs V) 9 = component V 10 := by simp [component, Fintype.sum_bool, turn, swapLegs]; ring
    rw [e, three_ones (by ring) (swap_thermal h'), e7, e11, e13, e14, e3, e5, e9]
    simp only [slice, four123, tv, tvp]
    rw [fac_neg, ← g11, ← g7, show cc (cc (component V 7)) = component V 7 from Complex.conj_conj _]
    push_cast
    linear_combination ((fac v T : ℝ) : ℂ) * ((fac vp T : ℝ) : ℂ) * im2 (component V 11) + ((fac vp T : ℝ) : ℂ) * i10
  have cr : ∀ z : ℝ, cc (z : ℂ) = z := Complex.conj_ofReal
  match iK with
  | 0 =>
    have k := congrFun (c112_third .t T 0 v vp V h) 0
    rw [← k]
    simp only [cellK3, facK3, if_true, four1234, slice, tv, tvp]
    rw [show vp + (0 : ℝ) / 2 = vp by ring, show v - (0 : ℝ) / 2 = v by ring, show -vp + (0 : ℝ) / 2 = -vp by ring,
      show -v - (0 : ℝ) / 2 = -v by ring, fac_neg, fac_neg, ← g7, ← g11, g9, g12, im_neg_cc, im_neg_cc]
    rw [show cc (cc (component V 7)) = component V 7 from Complex.conj_conj _,
      show cc (cc (component V 11)) = component V 11 from Complex.conj_conj _]
    push_cast
    have a7 := im2 (component V 7)
    have a11 := im2 (component V 11)
    have a3 := im2 (component V 3)
    have a6 := im2 (component V 6)
    generalize ((fac v T : ℝ) : ℂ) = p at *
    generalize ((fac vp T : ℝ) : ℂ) = q at *
    linear_combination q * (1 + p ^ 2) * a7 + p * (1 + q ^ 2) * a11 + p * q * a3 - p * q * a6 + p ^ 2 * i5 + q ^ 2 * i10
  | 1 => exact r1
  | 2 => exact r2
  | 3 => rfl
  | 4 =>
    rw [← g1, ← r1]
    simp only [slice, tv, tvp]
    simp only [cc, map_add, map_sub, map_mul, Complex.conj_I, map_ofNat] at cr g11 g3 g6 ⊢
    simp only [cr, g11, g3, g9, map_neg, Complex.conj_conj, cc]
    ring
  | 5 =>
    simp only [slice, tv, tvp]
    have x0 : weight T vp true ≠ 0 := by
      simp only [weight, if_true, ne_eq, neg_eq_zero]
      exact_mod_cast (Real.exp_pos _).ne'
    have y0 : weight T v true ≠ 0 := by
      simp only [weight, if_true, ne_eq, neg_eq_zero]
      exact_mod_cast (Real.exp_pos _).ne'
    have inv : ∀ ν : ℝ, weight T (-ν) true = (weight T ν true)⁻¹ := by
      intro ν
      simp only [weight, if_true]
      rw [neg_div, Real.exp_neg]; push_cast; rw [inv_neg]
    have hc : ∀ a b c d, cc (V a b c d) = -(bz (weight T vp true) a * bz (weight T v true) b *
        bz (weight T vp true)⁻¹ c * bz (weight T v true)⁻¹ d) * V (!a) (!b) (!c) (!d) := by
      intro a b c d
      rw [← inv, ← inv, ← weight_bz, ← weight_bz, ← weight_bz, ← weight_bz]; exact h'.kms a b c d
    have cv := cosh_tanh ((v - 0) / (2 * T))
    have cvp := cosh_tanh ((vp - 0) / (2 * T))
    have pv := Real.cosh_pos ((v - 0) / (2 * T))
    have pvp := Real.cosh_pos ((vp - 0) / (2 * T))
    rw [tv] at cv
    rw [tvp] at cvp
    generalize Real.cosh ((v - 0) / (2 * T)) = A at *
    generalize Real.cosh ((vp - 0) / (2 * T)) = B at *
    have A0 : (A : ℂ) ≠ 0 := by exact_mod_cast pv.ne'
    have B0 : (B : ℂ) ≠ 0 := by exact_mod_cast pvp.ne'
    have cv' : (A : ℂ) ^ 2 * (1 - ((fac v T : ℝ) : ℂ) ^ 2) = 1 := by exact_mod_cast cv
    have cvp' : (B : ℂ) ^ 2 * (1 - ((fac vp T : ℝ) : ℂ) ^ 2) = 1 := by exact_mod_cast cvp
    have K := alg5 (V := V) (Vc := fun a b c d => cc (V a b c d)) x0 y0 (weight_ne T _) (weight_ne T _)
      (fac_weight T vp) (fac_weight T v) hc hh h'.causal ((A : ℂ) * A / (B * B)) (by
        have : (1 - ((fac vp T : ℝ) : ℂ) ^ 2) = 1 / (B : ℂ) ^ 2 := by field_simp; linear_combination cvp'
        rw [this]
        field_simp
        linear_combination cv')
    rw [K, ← cc_component, ← cc_component, ← im2, ← im2]
    ring
  | 6 => rfl
  | 7 => rfl
  | 8 =>
    rw [← g2, ← r2]
    simp only [slice, tv, tvp]
    simp only [cc, map_add, map_sub, map_mul, Complex.conj_I, map_ofNat] at cr g7 g3 g6 ⊢
    simp only [cr, g7, g3, g6]
    ring
  | 9 => exact g9.symm
  | 10 => rfl
  | 11 => rfl
  | 12 => exact g12.symm
  | 13 => rfl
  | 14 => rfl
  | 15 =>
    have := h.causal
    simp only [slice]
    simp [component, turn, Fintype.sum_bool] at this ⊢
    linear_combination this
  | n + 16 => rfl

end Verif.Fdt
