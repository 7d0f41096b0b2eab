import Mathlib.Tactic.FieldSimp
import Mathlib.Tactic.LinearCombination
import Mathlib.Tactic.Linarith
import Verif.Fdt.Spec
import Verif.Fdt.Model

namespace Verif.Fdt
open Freqs (Ch)

theorem cc_component (V : Contour) (k : Nat) :
    cc (component V k) = component (fun a b c d => cc (V a b c d)) k := by
  have t : ∀ n b, cc (turn n b) = turn n b := by
    intro n b; unfold turn cc; split_ifs <;> simp
  unfold component
  simp only [cc] at t ⊢
  simp only [map_mul, map_sum, t]
  congr 1
  rw [map_div₀, map_one, Complex.conj_ofNat]

/-- Weights in general position. -/
def bz (x : ℂ) (b : Bool) : ℂ := if b then x else 1

section
variable {x y z u N1 N2 N3 N4 : ℂ} (h : x * y * z * u = 1)
   (h1 : N1 * (x - 1) = x + 1) (h2 : N2 * (y - 1) = y + 1) (h3 : N3 * (z - 1) = z + 1) (h4 : N4 * (u - 1) = u + 1)
   (hx : x ≠ 1) (hy : y ≠ 1) (hz : z ≠ 1) (hw : u ≠ 1)
   {V Vc : Contour}
   (hc : ∀ a b c d, Vc a b c d = -(bz x a * bz y b * bz z c * bz u d) * V (!a) (!b) (!c) (!d))
   (S : ∑ a, ∑ b, ∑ c, ∑ d, V a b c d = 0) (S' : ∑ a, ∑ b, ∑ c, ∑ d, Vc a b c d = 0)

include h h1 h2 h3 hx hy hz hc S S'

theorem alg123 : component V 1 = (1 + N1 * N2 + N1 * N3 + N2 * N3) * component Vc 14 -
     (component V 7 * N2 * N3 + N1 * component V 11 * N3 + N1 * N2 * component V 13 + N1 * component V 9 +
      component V 3 * N3 + component V 5 * N2) := by
  have hx' : x - 1 ≠ 0 := sub_ne_zero.2 hx
  have hy' : y - 1 ≠ 0 := sub_ne_zero.2 hy
  have hz' : z - 1 ≠ 0 := sub_ne_zero.2 hz
  have x0 : x ≠ 0 := by rintro rfl; simp at h
  have y0 : y ≠ 0 := by rintro rfl; simp at h
  have z0 : z ≠ 0 := by rintro rfl; simp at h
  have hu : u = 1 / (x * y * z) := by field_simp; linear_combination h
  have e1 : N1 = (x + 1) / (x - 1) := by field_simp; linear_combination h1
  have e2 : N2 = (y + 1) / (y - 1) := by field_simp; linear_combination h2
  have e3 : N3 = (z + 1) / (z - 1) := by field_simp; linear_combination h3
  simp only [hc] at S'
  simp only [component, hc]
  simp [Fintype.sum_bool, bz, turn] at S S' ⊢
  generalize V true true true true = v15 at *
  generalize V true true true false = v14 at *
  generalize V true true false true = v13 at *
  generalize V true true false false = v12 at *
  generalize V true false true true = v11 at *
  generalize V true false true false = v10 at *
  generalize V true false false true = v9 at *
  generalize V true false false false = v8 at *
  generalize V false true true true = v7 at *
  generalize V false true true false = v6 at *
  generalize V false true false true = v5 at *
  generalize V false true false false = v4 at *
  generalize V false false true true = v3 at *
  generalize V false false true false = v2 at *
  generalize V false false false true = v1 at *
  generalize V false false false false = v0 at *
  rw [← sub_eq_zero]
  have key := congrArg₂ (· + ·) (congrArg ((-N1*N2*N3/4) * ·) S) (congrArg (((-N1-N2-N3-N1*N2*N3)/4) * ·) S')
  simp only [mul_zero, add_zero] at key
  rw [← key, hu, e1, e2, e3]
  field_simp
  ring

include h4 hw

set_option maxHeartbeats 1600000 in
set_option maxRecDepth 10000 in
theorem alg1234 : component V 0 =
    component V 7 * N2 * N3 * N4 * 2 + N1 * component V 11 * N3 * N4 * 2 + N1 * N2 * component V 13 * N4 * 2
    + N1 * N2 * N3 * component V 14 * 2
    + (N2 * N3 * N4 + N2 + N3 + N4) * component Vc 7 + (N1 * N3 * N4 + N1 + N3 + N4) * component Vc 11
    + (N1 * N2 * N4 + N1 + N2 + N4) * component Vc 13 + (N1 * N2 * N3 + N1 + N2 + N3) * component Vc 14
    + N3 * N4 * component V 3 + N2 * N4 * component V 5 + N2 * N3 * component V 6 + N1 * N4 * component V 9
    + N1 * N3 * component V 10 + N1 * N2 * component V 12 := by
  have hx' : x - 1 ≠ 0 := sub_ne_zero.2 hx
  have hy' : y - 1 ≠ 0 := sub_ne_zero.2 hy
  have hz' : z - 1 ≠ 0 := sub_ne_zero.2 hz
  have x0 : x ≠ 0 := by rintro rfl; simp at h
  have y0 : y ≠ 0 := by rintro rfl; simp at h
  have z0 : z ≠ 0 := by rintro rfl; simp at h
  have hu : u = 1 / (x * y * z) := by field_simp; linear_combination h
  have hw' : 1 - x * y * z ≠ 0 := by
    intro e; apply hw; rw [hu, show x * y * z = 1 by linear_combination -e]; simp
  have e1 : N1 = (x + 1) / (x - 1) := by field_simp; linear_combination h1
  have e2 : N2 = (y + 1) / (y - 1) := by field_simp; linear_combination h2
  have e3 : N3 = (z + 1) / (z - 1) := by field_simp; linear_combination h3
  have e4 : N4 = (1 + x * y * z) / (1 - x * y * z) := by
    rw [hu] at h4
    field_simp at h4 ⊢
    linear_combination h4
  simp only [hc] at S'
  simp only [component, hc]
  simp [Fintype.sum_bool, bz, turn] at S S' ⊢
  generalize V true true true true = v15 at *
  generalize V true true true false = v14 at *
  generalize V true true false true = v13 at *
  generalize V true true false false = v12 at *
  generalize V true false true true = v11 at *
  generalize V true false true false = v10 at *
  generalize V true false false true = v9 at *
  generalize V true false false false = v8 at *
  generalize V false true true true = v7 at *
  generalize V false true true false = v6 at *
  generalize V false true false true = v5 at *
  generalize V false true false false = v4 at *
  generalize V false false true true = v3 at *
  generalize V false false true false = v2 at *
  generalize V false false false true = v1 at *
  generalize V false false false false = v0 at *
  rw [← sub_eq_zero]
  have key := congrArg₂ (· + ·) (congrArg ((3*(N1*N2*N3*N4)/4) * ·) S)
    (congrArg (((-1+(N1*N2+N1*N3+N1*N4+N2*N3+N2*N4+N3*N4)+3*(N1*N2*N3*N4))/4) * ·) S')
  simp only [mul_zero, add_zero] at key
  rw [← key, hu, e1, e2, e3, e4]
  have hq : ∃ q : ℂ, q = 1 - x * y * z := ⟨_, rfl⟩
  obtain ⟨q, hq⟩ := hq
  rw [← hq] at hw' ⊢
  field_simp
  rw [hq]
  ring
end

/-- Components of a function of three legs. -/
noncomputable def comp3 (W : Bool → Bool → Bool → ℂ) (i j k : Nat) : ℂ :=
  1 / 4 * ∑ a, ∑ b, ∑ c, turn i a * turn j b * turn k c * W a b c

/-- Components of a function of two legs. -/
noncomputable def comp2 (W : Bool → Bool → ℂ) (i j : Nat) : ℂ :=
  1 / 4 * ∑ a, ∑ b, turn i a * turn j b * W a b

section
variable {x y z N1 N2 N3 : ℂ} (h : x * y * z = 1)
   (h1 : N1 * (x - 1) = x + 1) (h2 : N2 * (y - 1) = y + 1) (h3 : N3 * (z - 1) = z + 1)
   (hx : x ≠ 1) (hy : y ≠ 1) (hz : z ≠ 1)
   {W Wc : Bool → Bool → Bool → ℂ}
   (hc : ∀ a b c, Wc a b c = -(bz x a * bz y b * bz z c) * W (!a) (!b) (!c))
   (S : ∑ a, ∑ b, ∑ c, W a b c = 0) (S' : ∑ a, ∑ b, ∑ c, Wc a b c = 0)

include h h1 h2 h3 hx hy hz hc S S'

theorem alg3 : comp3 W 0 0 1 = N2 * (comp3 Wc 1 1 0 - comp3 W 0 1 1) + N1 * (comp3 Wc 1 1 0 - comp3 W 1 0 1) ∧
    comp3 W 0 1 0 = N3 * (comp3 Wc 1 0 1 - comp3 W 0 1 1) + N1 * (comp3 Wc 1 0 1 - comp3 W 1 1 0) ∧
    comp3 W 1 0 0 = N3 * (comp3 Wc 0 1 1 - comp3 W 1 0 1) + N2 * (comp3 Wc 0 1 1 - comp3 W 1 1 0) ∧
    comp3 W 0 0 0 = comp3 Wc 0 1 1 + comp3 Wc 1 0 1 + comp3 Wc 1 1 0 +
      ((comp3 W 0 1 1 * N2 * N3 + N1 * comp3 W 1 0 1 * N3 + N1 * N2 * comp3 W 1 1 0) +
       (comp3 Wc 0 1 1 * N2 * N3 + N1 * comp3 Wc 1 0 1 * N3 + N1 * N2 * comp3 Wc 1 1 0)) := by
  have hx' : x - 1 ≠ 0 := sub_ne_zero.2 hx
  have hy' : y - 1 ≠ 0 := sub_ne_zero.2 hy
  have x0 : x ≠ 0 := by rintro rfl; simp at h
  have y0 : y ≠ 0 := by rintro rfl; simp at h
  have hu : z = 1 / (x * y) := by field_simp; linear_combination h
  have hw' : 1 - x * y ≠ 0 := by
    intro e; apply hz; rw [hu, show x * y = 1 by linear_combination -e]; simp
  have e1 : N1 = (x + 1) / (x - 1) := by field_simp; linear_combination h1
  have e2 : N2 = (y + 1) / (y - 1) := by field_simp; linear_combination h2
  have e3 : N3 = (1 + x * y) / (1 - x * y) := by
    rw [hu] at h3
    field_simp at h3 ⊢
    linear_combination h3
  simp only [hc] at S'
  simp only [comp3, hc]
  simp [Fintype.sum_bool, bz, turn] at S S' ⊢
  generalize W true true true = v7 at *
  generalize W true true false = v6 at *
  generalize W true false true = v5 at *
  generalize W true false false = v4 at *
  generalize W false true true = v3 at *
  generalize W false true false = v2 at *
  generalize W false false true = v1 at *
  generalize W false false false = v0 at *
  obtain ⟨q, hq⟩ : ∃ q : ℂ, q = 1 - x * y := ⟨_, rfl⟩
  refine ⟨?_, ?_, ?_, ?_⟩
  · rw [← sub_eq_zero]
    have key := congrArg₂ (· + ·) (congrArg ((-(N1*N2)/4) * ·) S) (congrArg (((-1-N1*N2)/4) * ·) S')
    simp only [mul_zero, add_zero] at key
    rw [← key, hu, e1, e2]
    field_simp
    ring
  · rw [← sub_eq_zero]
    have key := congrArg₂ (· + ·) (congrArg ((-(N1*N3)/4) * ·) S) (congrArg (((-1-N1*N3)/4) * ·) S')
    simp only [mul_zero, add_zero] at key
    rw [← key, hu, e1, e3]
    rw [← hq] at hw' ⊢
    field_simp
    rw [hq]
    ring
  · rw [← sub_eq_zero]
    have key := congrArg₂ (· + ·) (congrArg ((-(N2*N3)/4) * ·) S) (congrArg (((-1-N2*N3)/4) * ·) S')
    simp only [mul_zero, add_zero] at key
    rw [← key, hu, e2, e3]
    rw [← hq] at hw' ⊢
    field_simp
    rw [hq]
    ring
  · rw [← sub_eq_zero]
    have key := congrArg₂ (· + ·) (congrArg ((2*(N1*N2*N3)/4) * ·) S) (congrArg ((2*(N1*N2*N3)/4) * ·) S')
    simp only [mul_zero, add_zero] at key
    rw [← key, hu, e1, e2, e3]
    rw [← hq] at hw' ⊢
    field_simp
    rw [hq]
    ring
end

theorem alg2 {x y N : ℂ} (h : x * y = 1) (h1 : N * (x - 1) = x + 1) (hx : x ≠ 1) {W Wc : Bool → Bool → ℂ}
    (hc : ∀ a b, Wc a b = -(bz x a * bz y b) * W (!a) (!b))
    (S' : ∑ a, ∑ b, Wc a b = 0) :
    comp2 W 0 0 = N * (comp2 W 0 1 - comp2 Wc 0 1) := by
  have hx' : x - 1 ≠ 0 := sub_ne_zero.2 hx
  have x0 : x ≠ 0 := by rintro rfl; simp at h
  have hu : y = 1 / x := by field_simp; linear_combination h
  have e1 : N = (x + 1) / (x - 1) := by field_simp; linear_combination h1
  simp only [hc] at S'
  simp only [comp2, hc]
  simp [Fintype.sum_bool, bz, turn] at S' ⊢
  generalize W true true = v3 at *
  generalize W true false = v2 at *
  generalize W false true = v1 at *
  generalize W false false = v0 at *
  rw [← sub_eq_zero]
  have key := congrArg ((-1/4) * ·) S'
  simp only [mul_zero] at key
  rw [← key, hu, e1]
  field_simp
  ring

/-! ### Weights and distribution functions -/

theorem weight_bz (T ν : ℝ) (b : Bool) : weight T ν b = bz (weight T ν true) b := by
  cases b <;> simp [weight, bz]

theorem weight_ne (T ν : ℝ) : weight T ν true ≠ 1 := by
  have := Real.exp_pos (ν / T)
  simp only [weight, if_true]
  intro e
  have : -(Real.exp (ν / T)) = 1 := by exact_mod_cast e
  linarith

theorem tanh_exp (y : ℝ) : Real.tanh y * (Real.exp (2 * y) + 1) = Real.exp (2 * y) - 1 := by
  rw [Real.tanh_eq_sinh_div_cosh, Real.sinh_eq, Real.cosh_eq, show 2 * y = y + y by ring, Real.exp_add, Real.exp_neg]
  have := Real.exp_pos y
  field_simp

theorem fac_weight (T ν : ℝ) :
    (fac ν T : ℂ) * (weight T ν true - 1) = weight T ν true + 1 := by
  have k := tanh_exp ((ν - 0) / (2 * T))
  rw [show 2 * ((ν - 0) / (2 * T)) = ν / T by ring] at k
  simp only [weight, if_true, fac, Propagator.fermiFac]
  have k' : ((Real.tanh ((ν - 0) / (2 * T)) : ℝ) : ℂ) * (((Real.exp (ν / T) : ℝ) : ℂ) + 1) =
      ((Real.exp (ν / T) : ℝ) : ℂ) - 1 := by exact_mod_cast k
  linear_combination -k'

theorem weight_mul (T a b : ℝ) : weight T a true * weight T b true = ((Real.exp ((a + b) / T) : ℝ) : ℂ) := by
  simp only [weight, if_true]
  rw [add_div, Real.exp_add]; push_cast; ring

theorem boson_ne {T w : ℝ} (hT : 0 < T) (hw : w ≠ 0) : ((Real.exp (w / T) : ℝ) : ℂ) ≠ 1 := by
  intro e
  have e' : Real.exp (w / T) = 1 := by exact_mod_cast e
  have := Real.exp_eq_one_iff (w / T) |>.1 e'
  rw [div_eq_zero_iff] at this
  rcases this with h | h
  · exact hw h
  · exact hT.ne' h

theorem fac_boson {T w : ℝ} (hT : 0 < T) (hw : w ≠ 0) :
    ((1 / fac w T : ℝ) : ℂ) * (((Real.exp (w / T) : ℝ) : ℂ) - 1) = ((Real.exp (w / T) : ℝ) : ℂ) + 1 := by
  have k := tanh_exp ((w - 0) / (2 * T))
  rw [show 2 * ((w - 0) / (2 * T)) = w / T by ring] at k
  have n : Real.exp (w / T) - 1 ≠ 0 := by
    intro e; exact boson_ne hT hw (by have : Real.exp (w / T) = 1 := by linarith
                                      exact_mod_cast this)
  have f0 : fac w T ≠ 0 := by
    intro e
    unfold fac Propagator.fermiFac at e
    rw [e] at k; exact n (by linarith)
  have : (1 / fac w T) * (Real.exp (w / T) - 1) = Real.exp (w / T) + 1 := by
    unfold fac Propagator.fermiFac at f0 ⊢
    rw [← k]; field_simp
  exact_mod_cast this

theorem weight_prod (T a b c d : ℝ) (h : a + b + c + d = 0) :
    weight T a true * weight T b true * weight T c true * weight T d true = 1 := by
  rw [weight_mul, mul_assoc, weight_mul, ← Complex.ofReal_mul, ← Real.exp_add, ← add_div, ← add_assoc, h]
  simp

end Verif.Fdt
