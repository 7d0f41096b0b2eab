import Verif.Sde.Props
import Verif.Sde.SpecLimit
import Verif.Sde.Versions
import Mathlib.MeasureTheory.Integral.Prod
import Mathlib.MeasureTheory.Group.Prod
import Mathlib.MeasureTheory.Integral.IntegralEqImproper
import Mathlib.Analysis.SpecialFunctions.JapaneseBracket

/-! The diagrams of the Schwinger–Dyson equation at real frequencies as integrals over two of its three lines. -/
namespace Verif.Sde.Limit
open Verif.Symmetries Verif.Heredity Verif.Propagator Verif.Invariant MeasureTheory
open Verif.Freqs (Ch Fr legs)

/-- Four Keldysh indices. -/
abbrev K4 : Type := Bool × Bool × Bool × Bool

theorem sum_lines (f : Heredity.Lines → ℂ) : ∑ q, f q = ∑ k : K4, ((f ⟨true, true, k.1, k.2.1, k.2.2.1, k.2.2.2⟩ +
    f ⟨true, false, k.1, k.2.1, k.2.2.1, k.2.2.2⟩) + (f ⟨false, true, k.1, k.2.1, k.2.2.1, k.2.2.2⟩ +
    f ⟨false, false, k.1, k.2.1, k.2.2.1, k.2.2.2⟩)) := by
  rw [← Heredity.Lines.equiv.symm.sum_comp]
  rw [Fintype.sum_prod_type, Fintype.sum_bool, Fintype.sum_prod_type, Fintype.sum_bool, Fintype.sum_prod_type (fun x : Bool × K4 => f (Heredity.Lines.equiv.symm (false, x))), Fintype.sum_bool]
  simp only [← Finset.sum_add_distrib]
  rfl

section
variable (w : ℝ) (Γ : VF) (P : Pair) (o b i d : Bool) (v vp y z : ℝ)

theorem bare_val (h : Bool) (c : Ch) (s : Nat) (k1 k2 k3 k4 : Bool) (ν : Fin 4 → ℝ) : bareK w h c s ![k1, k2, k3, k4] ν =
    if s = 0 then beta w k1 k2 k3 k4 else -beta w k1 k2 k3 k4 := rfl

theorem inner_a_left : inner ⟨bareK w⟩ ⟨Γ⟩ P .a ⟨true, o, v⟩ ⟨false, b, vp⟩ ⟨true, i, v⟩ ⟨false, d, vp⟩ y z =
    ∑ k : K4, beta w o k.2.2.2 k.1 d * P k.1 k.2.1 k.2.2.1 k.2.2.2 y z * Γ true .a 0 ![k.2.2.1, b, i, k.2.1] ![y, vp, v, z] := by
  rw [Heredity.inner, sum_lines]
  refine Finset.sum_congr rfl fun k _ => ?_
  simp [term, legVal, bare_val]

theorem inner_a_right : inner ⟨Γ⟩ ⟨bareK w⟩ P .a ⟨true, o, v⟩ ⟨false, b, vp⟩ ⟨true, i, v⟩ ⟨false, d, vp⟩ y z =
    ∑ k : K4, Γ false .a 0 ![o, k.2.2.2, k.1, d] ![v, z, y, vp] * P k.1 k.2.1 k.2.2.1 k.2.2.2 y z * beta w k.2.2.1 b i k.2.1 := by
  rw [Heredity.inner, sum_lines]
  refine Finset.sum_congr rfl fun k _ => ?_
  simp [term, legVal, bare_val]

theorem inner_p_left : inner ⟨bareK w⟩ ⟨Γ⟩ P .p ⟨true, o, v⟩ ⟨false, b, vp⟩ ⟨true, i, v⟩ ⟨false, d, vp⟩ y z =
    ∑ k : K4, beta w o b k.1 k.2.1 * P k.1 k.2.1 k.2.2.1 k.2.2.2 y z * Γ true .p 0 ![k.2.2.1, k.2.2.2, i, d] ![y, z, v, vp] := by
  rw [Heredity.inner, sum_lines]
  refine Finset.sum_congr rfl fun k _ => ?_
  simp [term, legVal, bare_val]

theorem inner_p_right : inner ⟨Γ⟩ ⟨bareK w⟩ P .p ⟨true, o, v⟩ ⟨false, b, vp⟩ ⟨true, i, v⟩ ⟨false, d, vp⟩ y z =
    ∑ k : K4, Γ false .p 0 ![o, b, k.1, k.2.1] ![v, vp, y, z] * P k.1 k.2.1 k.2.2.1 k.2.2.2 y z * beta w k.2.2.1 k.2.2.2 i d := by
  rw [Heredity.inner, sum_lines]
  refine Finset.sum_congr rfl fun k _ => ?_
  simp [term, legVal, bare_val]

theorem inner_t_left : inner ⟨bareK w⟩ ⟨Γ⟩ P .t ⟨true, b, vp⟩ ⟨false, o, v⟩ ⟨true, i, v⟩ ⟨false, d, vp⟩ y z =
    ∑ k : K4, (beta w k.2.2.2 o k.1 d * P k.1 k.2.1 k.2.2.1 k.2.2.2 y z * Γ true .t 0 ![b, k.2.2.1, i, k.2.1] ![vp, y, v, z] +
      beta w k.2.2.2 o k.1 d * P k.1 k.2.1 k.2.2.1 k.2.2.2 y z * Γ true .t 1 ![b, k.2.2.1, i, k.2.1] ![vp, y, v, z]) := by
  rw [Heredity.inner, sum_lines]
  refine Finset.sum_congr rfl fun k _ => ?_
  simp [term, legVal, bare_val]
  ring

theorem inner_t_left' : inner ⟨bareK w⟩ ⟨Γ⟩ P .t ⟨true, b, vp⟩ ⟨false, o, v⟩ ⟨false, i, v⟩ ⟨true, d, vp⟩ y z =
    ∑ k : K4, -(beta w k.2.2.2 o k.1 d * P k.1 k.2.1 k.2.2.1 k.2.2.2 y z * Γ true .t 1 ![b, k.2.2.1, i, k.2.1] ![vp, y, v, z]) := by
  rw [Heredity.inner, sum_lines]
  refine Finset.sum_congr rfl fun k _ => ?_
  simp [term, legVal, bare_val]

theorem inner_t_right : inner ⟨Γ⟩ ⟨bareK w⟩ P .t ⟨true, b, vp⟩ ⟨false, o, v⟩ ⟨true, i, v⟩ ⟨false, d, vp⟩ y z =
    ∑ k : K4, (Γ false .t 0 ![k.2.2.2, o, k.1, d] ![z, v, y, vp] * P k.1 k.2.1 k.2.2.1 k.2.2.2 y z * beta w b k.2.2.1 i k.2.1 +
      Γ false .t 1 ![k.2.2.2, o, k.1, d] ![z, v, y, vp] * P k.1 k.2.1 k.2.2.1 k.2.2.2 y z * beta w b k.2.2.1 i k.2.1) := by
  rw [Heredity.inner, sum_lines]
  refine Finset.sum_congr rfl fun k _ => ?_
  simp [term, legVal, bare_val]
  ring

theorem inner_t_right' : inner ⟨Γ⟩ ⟨bareK w⟩ P .t ⟨true, b, vp⟩ ⟨false, o, v⟩ ⟨false, i, v⟩ ⟨true, d, vp⟩ y z =
    ∑ k : K4, -(Γ false .t 1 ![k.2.2.2, o, k.1, d] ![z, v, y, vp] * P k.1 k.2.1 k.2.2.1 k.2.2.2 y z * beta w b k.2.2.1 i k.2.1) := by
  rw [Heredity.inner, sum_lines]
  refine Finset.sum_congr rfl fun k _ => ?_
  simp [term, legVal, bare_val]
end

/-! ### Bubbles with the frequencies of a loop -/

section
variable (L R : VF) (P : Pair) (o b i d : Bool) (v vp : ℝ)

theorem bub_a : bub L R P false .a 0 ![o, b, i, d] ![v, vp, v, vp] = pref .a * ∫ y : ℝ,
    Heredity.inner ⟨L⟩ ⟨R⟩ P .a ⟨true, o, v⟩ ⟨false, b, vp⟩ ⟨true, i, v⟩ ⟨false, d, vp⟩ y (y + vp - v) := by
  have h : (bubble ⟨L⟩ ⟨R⟩ P).val false .a 0 ![o, b, i, d] ![v, vp, v, vp] = _ := if_pos (by simp)
  rw [bub, h]
  congr 1
  refine Eq.trans ?_ (integral_sub_right_eq_self (fun y : ℝ => Heredity.inner ⟨L⟩ ⟨R⟩ P .a ⟨true, o, v⟩ ⟨false, b, vp⟩ ⟨true, i, v⟩ ⟨false, d, vp⟩ y (y + vp - v)) ((vp - v) / 2))
  refine integral_congr_ae (Filter.Eventually.of_forall fun x => ?_)
  simp only [Heredity.lineE]
  rw [show x - (vp - v) / 2 + vp - v = x + (vp - v) / 2 by ring]
  rfl

theorem bub_p : bub L R P false .p 0 ![o, b, i, d] ![v, vp, v, vp] = pref .a * ∫ y : ℝ,
    Heredity.inner ⟨L⟩ ⟨R⟩ P .p ⟨true, o, v⟩ ⟨false, b, vp⟩ ⟨true, i, v⟩ ⟨false, d, vp⟩ y (v + vp - y) := by
  have h : (bubble ⟨L⟩ ⟨R⟩ P).val false .p 0 ![o, b, i, d] ![v, vp, v, vp] = _ := if_pos (by simp)
  rw [bub, h]
  have hp : pref .p = pref .a := rfl
  rw [hp]
  refine congrArg (pref .a * ·) ?_
  refine Eq.trans ?_ (integral_add_right_eq_self (fun y : ℝ => Heredity.inner ⟨L⟩ ⟨R⟩ P .p ⟨true, o, v⟩ ⟨false, b, vp⟩ ⟨true, i, v⟩ ⟨false, d, vp⟩ y (v + vp - y)) ((v + vp) / 2))
  refine integral_congr_ae (Filter.Eventually.of_forall fun x => ?_)
  simp only [Heredity.lineE]
  rw [show v + vp - (x + (v + vp) / 2) = -x + (v + vp) / 2 by ring]
  rfl

theorem bub_t (s : Nat) : bub L R P false .t s ![b, o, i, d] ![vp, v, v, vp] = -pref .a * ∫ y : ℝ,
    Heredity.inner ⟨L⟩ ⟨R⟩ P .t ⟨true, b, vp⟩ ⟨false, o, v⟩ ⟨s == 0, i, v⟩ ⟨s != 0, d, vp⟩ y (y + vp - v) := by
  have h : (bubble ⟨L⟩ ⟨R⟩ P).val false .t s ![b, o, i, d] ![vp, v, v, vp] = _ := if_pos (by simp [add_comm])
  rw [bub, h]
  have hp : pref .t = -pref .a := by simp [pref]
  rw [hp]
  congr 1
  refine Eq.trans ?_ (integral_sub_right_eq_self (fun y : ℝ => Heredity.inner ⟨L⟩ ⟨R⟩ P .t ⟨true, b, vp⟩ ⟨false, o, v⟩ ⟨s == 0, i, v⟩ ⟨s != 0, d, vp⟩ y (y + vp - v)) ((vp - v) / 2))
  refine integral_congr_ae (Filter.Eventually.of_forall fun x => ?_)
  simp only [Heredity.lineE]
  rw [show x - (vp - v) / 2 + vp - v = x + (vp - v) / 2 by ring]
  rfl
end

/-! ### The closed diagram -/

/-- Six Keldysh indices: the ends of the closing line, those of the line parallel to it and those of the third line. -/
abbrev K6 : Type := Bool × Bool × K4

/-- One term of the closed diagram with the two lines of a bubble in channel `a`: outer frequency `v`, frequency `vp` of the
line that closes the loop, frequency `y` of the line parallel to it. -/
noncomputable def kern (G : ℝ → Keldysh.Prop2 ℂ) (w : ℝ) (g : (Fin 4 → Bool) → (Fin 4 → ℝ) → ℂ) (o i : Bool) (v vp y : ℝ)
    (k : K6) : ℂ :=
  comp (G vp) k.2.1 k.1 * (comp (G y) k.2.2.1 k.2.2.2.2.1 * comp (G (y + vp - v)) k.2.2.2.1 k.2.2.2.2.2) *
    (beta w o k.2.2.2.2.2 k.2.2.1 k.2.1 * g ![k.2.2.2.2.1, k.1, i, k.2.2.2.1] ![y, vp, v, y + vp - v] +
      g ![o, k.2.2.2.2.2, k.2.2.1, k.2.1] ![v, y + vp - v, y, vp] * beta w k.2.2.2.2.1 k.1 i k.2.2.2.1)

/-- The closed diagram. -/
noncomputable def dia (G : ℝ → Keldysh.Prop2 ℂ) (w : ℝ) (g : (Fin 4 → Bool) → (Fin 4 → ℝ) → ℂ) (o i : Bool) (v vp y : ℝ) : ℂ :=
  ∑ k : K6, kern G w g o i v vp y k

theorem sum_six (f : K6 → ℂ) : ∑ k, f k = ∑ b : Bool, ∑ d : Bool, ∑ k : K4, f (b, d, k) := by
  rw [Fintype.sum_prod_type]
  simp only [Fintype.sum_prod_type (f := fun x : Bool × K4 => f (_, x))]

theorem beta_perm (w : ℝ) (a b c d : Bool) : beta w a b c d = beta w b a c d ∧ beta w a b c d = beta w a b d c := by
  cases a <;> cases b <;> cases c <;> cases d <;> simp [beta, twos]

/-! ### Integrability -/

variable {G : ℝ → Keldysh.Prop2 ℂ}

theorem comp_meas (hG : Decays G) (a b : Bool) : Measurable fun x => comp (G x) a b := by
  cases a <;> cases b <;> simp only [comp]
  · exact measurable_const
  · exact continuous_star.measurable.comp hG.measR
  · exact hG.measR
  · exact hG.measK

theorem comp_bound (hG : Decays G) : ∃ C : ℝ, 0 ≤ C ∧ ∀ a b x, ‖comp (G x) a b‖ ≤ C * (1 + ‖x‖)⁻¹ := by
  obtain ⟨C, hC⟩ := hG.bound
  have hC0 : 0 ≤ C := by
    have := (norm_nonneg _).trans (hC 0).1
    simpa using this
  refine ⟨C, hC0, fun a b x => ?_⟩
  have h := hC x
  rw [← Real.norm_eq_abs, div_eq_mul_inv] at h
  have hp : 0 ≤ C * (1 + ‖x‖)⁻¹ := by positivity
  cases a <;> cases b <;> simp only [comp]
  · simpa using hp
  · rw [norm_star]; exact h.1
  · exact h.1
  · exact h.2

theorem int_two : Integrable fun x : ℝ => ((1 + ‖x‖)⁻¹) ^ 2 := by
  have := integrable_one_add_norm (E := ℝ) (μ := volume) (r := 2) (by simp)
  refine this.congr (Filter.Eventually.of_forall fun x => ?_)
  have : 0 ≤ 1 + ‖x‖ := by positivity
  simp only [Real.rpow_neg this]
  norm_num

/-- The integrand of a bubble is integrable. -/
theorem sect (hG : Decays G) {ζ : ℝ → ℝ} (hm : Measurable ζ) (hζ : Integrable fun y => ((1 + ‖ζ y‖)⁻¹) ^ 2) {f : ℝ → ℂ}
    (hf : Measurable f) {B : ℝ} (hB : ∀ y, ‖f y‖ ≤ B) (a b c d : Bool) :
    Integrable fun y => comp (G y) a c * comp (G (ζ y)) b d * f y := by
  obtain ⟨C, hC0, hC⟩ := comp_bound hG
  refine ((int_two.add hζ).const_mul (C * C * B)).mono' ?_ (Filter.Eventually.of_forall fun y => ?_)
  · exact (((comp_meas hG a c).mul ((comp_meas hG b d).comp hm)).mul hf).aestronglyMeasurable
  · rw [norm_mul, norm_mul]
    have hB0 : 0 ≤ B := (norm_nonneg _).trans (hB y)
    set p := (1 + ‖y‖)⁻¹ with hp
    set r := (1 + ‖ζ y‖)⁻¹ with hr
    have p0 : 0 ≤ p := by positivity
    have r0 : 0 ≤ r := by positivity
    calc _ ≤ (C * p) * (C * r) * B := by
          gcongr
          · exact hC a c y
          · exact hC b d (ζ y)
          · exact hB y
      _ = C * C * B * (p * r) := by ring
      _ ≤ C * C * B * (p ^ 2 + r ^ 2) := by
          refine mul_le_mul_of_nonneg_left ?_ (by positivity)
          nlinarith [sq_nonneg (p - r)]
      _ = _ := rfl

theorem shift_two (s : ℝ) : Integrable fun y : ℝ => ((1 + ‖y + s‖)⁻¹) ^ 2 := int_two.comp_add_right s

theorem flip_two (s : ℝ) : Integrable fun y : ℝ => ((1 + ‖s - y‖)⁻¹) ^ 2 := int_two.comp_sub_left s

theorem meas_legs (e1 e2 e3 e4 : ℝ → ℝ) (h1 : Measurable e1) (h2 : Measurable e2) (h3 : Measurable e3) (h4 : Measurable e4) :
    Measurable fun y => ![e1 y, e2 y, e3 y, e4 y] := by
  rw [measurable_pi_iff]
  intro k
  fin_cases k
  · exact h1
  · exact h2
  · exact h3
  · exact h4

theorem beta_bound (w : ℝ) (a b c d : Bool) : ‖beta w a b c d‖ ≤ |w| := by
  unfold beta
  split <;> simp

/-- A term of the bubble is integrable, whatever the order of its factors. -/
theorem term_int (hG : Decays G) {g : (Fin 4 → Bool) → (Fin 4 → ℝ) → ℂ} (hg : Tame g) {ζ : ℝ → ℝ} (hm : Measurable ζ)
    (hζ : Integrable fun y => ((1 + ‖ζ y‖)⁻¹) ^ 2) {ν : ℝ → Fin 4 → ℝ} (hν : Measurable ν) (w : ℝ) (α : Fin 4 → Bool)
    (k1 k2 k3 k4 a b c d : Bool) :
    Integrable (fun y => beta w k1 k2 k3 k4 * pairOf G G false a b c d y (ζ y) * g α (ν y)) ∧
    Integrable (fun y => g α (ν y) * pairOf G G false a b c d y (ζ y) * beta w k1 k2 k3 k4) := by
  obtain ⟨B, hB⟩ := hg.bound
  have h := sect hG hm hζ (f := fun y => g α (ν y)) ((hg.meas α).comp hν) (fun y => hB α (ν y)) a b c d
  refine ⟨(h.const_mul (beta w k1 k2 k3 k4)).congr (Filter.Eventually.of_forall fun y => ?_),
    (h.const_mul (beta w k1 k2 k3 k4)).congr (Filter.Eventually.of_forall fun y => ?_)⟩ <;>
  · simp only [pairOf, Bool.false_eq_true, if_false]; ring

theorem loop_sum {L R : Bool → Bool → ℝ → ℂ} (hL : ∀ b d : Bool, Integrable (L b d)) (hR : ∀ b d : Bool, Integrable (R b d)) (c : Bool → Bool → ℂ) (κ : ℂ) :
    ∑ b : Bool, ∑ d : Bool, c b d * ((0.5 : ℝ) • (κ * (∫ y : ℝ, L b d y) + κ * ∫ y : ℝ, R b d y) : ℂ) =
      κ * (1/2) * ∫ y : ℝ, ∑ b : Bool, ∑ d : Bool, c b d * (L b d y + R b d y) := by
  have h : ∀ b d, Integrable fun y => c b d * (L b d y + R b d y) := fun b d => ((hL b d).add (hR b d)).const_mul (c b d)
  rw [integral_finsetSum _ fun b _ => integrable_finsetSum _ fun d _ => h b d, Finset.mul_sum]
  refine Finset.sum_congr rfl fun b _ => ?_
  rw [integral_finsetSum _ fun d _ => h b d, Finset.mul_sum]
  refine Finset.sum_congr rfl fun d _ => ?_
  rw [integral_const_mul, integral_add (hL b d) (hR b d), Complex.real_smul]
  push_cast
  norm_num
  ring

section
variable (w : ℝ) {Γ : VF} (hG : Decays G) (hΓ : TameV Γ) (hh : Γ true = Γ false) (o i : Bool) (v vp : ℝ)
include hG hΓ hh

theorem raw_a : sumK (seen false ((meanBub (bareK w) Γ (pairOf G G false)) false .a)) (G vp) o i v vp =
    pref .a * (1/2) * ∫ y : ℝ, dia G w (Γ false .a 0) o i v vp y := by
  have hm : Measurable fun y : ℝ => y + vp - v := by fun_prop
  have hζ : Integrable fun y : ℝ => ((1 + ‖y + vp - v‖)⁻¹) ^ 2 := by
    simpa [add_sub_assoc] using shift_two (vp - v)
  have t := hΓ false .a 0 (by decide)
  simp only [sumK, seen, meanBub, Bool.false_eq_true, if_false, Pi.smul_apply, Pi.add_apply, bub_a, inner_a_left, inner_a_right, hh]
  rw [loop_sum]
  · congr 1
    refine integral_congr_ae (Filter.Eventually.of_forall fun y => ?_)
    simp only [dia, sum_six]
    refine Finset.sum_congr rfl fun b _ => Finset.sum_congr rfl fun d _ => ?_
    rw [← Finset.sum_add_distrib, Finset.mul_sum]
    refine Finset.sum_congr rfl fun k _ => ?_
    simp only [kern, pairOf, Bool.false_eq_true, if_false]
    ring
  · exact fun b d => integrable_finsetSum _ fun k _ => (term_int hG t hm hζ (meas_legs _ _ _ _ (by fun_prop) (by fun_prop)
      (by fun_prop) (by fun_prop)) w _ _ _ _ _ _ _ _ _).1
  · exact fun b d => integrable_finsetSum _ fun k _ => (term_int hG t hm hζ (meas_legs _ _ _ _ (by fun_prop) (by fun_prop)
      (by fun_prop) (by fun_prop)) w _ _ _ _ _ _ _ _ _).2

theorem raw_p : sumK (seen false ((meanBub (bareK w) Γ (pairOf G G false)) false .p)) (G vp) o i v vp =
    pref .a * (1/2) * ∫ y : ℝ, dia G w (Γ false .p 0) o i v (v + vp - y) y := by
  have hm : Measurable fun y : ℝ => v + vp - y := by fun_prop
  have hζ : Integrable fun y : ℝ => ((1 + ‖v + vp - y‖)⁻¹) ^ 2 := flip_two (v + vp)
  have t := hΓ false .p 0 (by decide)
  simp only [sumK, seen, meanBub, Bool.false_eq_true, if_false, Pi.smul_apply, Pi.add_apply, bub_p, inner_p_left, inner_p_right, hh]
  rw [loop_sum]
  · congr 1
    refine integral_congr_ae (Filter.Eventually.of_forall fun y => ?_)
    let e : K6 ≃ K6 := ⟨fun k => (k.2.2.2.2.2, k.2.2.2.1, k.2.2.1, k.2.1, k.2.2.2.2.1, k.1),
      fun k => (k.2.2.2.2.2, k.2.2.2.1, k.2.2.1, k.2.1, k.2.2.2.2.1, k.1), fun _ => rfl, fun _ => rfl⟩
    simp only [dia]
    rw [← e.sum_comp, sum_six]
    refine Finset.sum_congr rfl fun b _ => Finset.sum_congr rfl fun d _ => ?_
    rw [← Finset.sum_add_distrib, Finset.mul_sum]
    refine Finset.sum_congr rfl fun k _ => ?_
    simp only [kern, pairOf, Bool.false_eq_true, if_false, e, Equiv.coe_fn_mk]
    rw [show y + (v + vp - y) - v = vp by ring]
    ring
  · exact fun b d => integrable_finsetSum _ fun k _ => (term_int hG t hm hζ (meas_legs _ _ _ _ (by fun_prop) (by fun_prop)
      (by fun_prop) (by fun_prop)) w _ _ _ _ _ _ _ _ _).1
  · exact fun b d => integrable_finsetSum _ fun k _ => (term_int hG t hm hζ (meas_legs _ _ _ _ (by fun_prop) (by fun_prop)
      (by fun_prop) (by fun_prop)) w _ _ _ _ _ _ _ _ _).2

theorem raw_t (hx : ∀ a b c d x1 x2 x3 x4, Γ false .t 0 ![a, b, c, d] ![x1, x2, x3, x4] = Γ false .t 0 ![b, a, d, c] ![x2, x1, x4, x3]) :
    sumK (seen true ((meanBub (bareK w) Γ (pairOf G G false)) false .t)) (G vp) o i v vp =
      -pref .a * (1/2) * ∫ y : ℝ, dia G w (Γ false .t 0) o i v y vp := by
  have hm : Measurable fun y : ℝ => y + vp - v := by fun_prop
  have hζ : Integrable fun y : ℝ => ((1 + ‖y + vp - v‖)⁻¹) ^ 2 := by
    simpa [add_sub_assoc] using shift_two (vp - v)
  have t0 := hΓ false .t 0 (by decide)
  have t1 := hΓ false .t 1 (by decide)
  have e0 : ((0 : ℕ) == 0) = true := rfl
  have e1 : ((0 : ℕ) != 0) = false := rfl
  have e2 : ((1 : ℕ) == 0) = false := rfl
  have e3 : ((1 : ℕ) != 0) = true := rfl
  have L0 : ∀ b d s, s < 2 → ∀ k : K4, Integrable fun y : ℝ => beta w k.2.2.2 o k.1 d * pairOf G G false k.1 k.2.1 k.2.2.1 k.2.2.2 y (y + vp - v) *
      Γ false .t s ![b, k.2.2.1, i, k.2.1] ![vp, y, v, y + vp - v] := fun b d s hs k => (term_int hG (hΓ false .t s hs) hm hζ
        (meas_legs _ _ _ _ (by fun_prop) (by fun_prop) (by fun_prop) (by fun_prop)) w _ _ _ _ _ _ _ _ _).1
  have R0 : ∀ b d s, s < 2 → ∀ k : K4, Integrable fun y : ℝ => Γ false .t s ![k.2.2.2, o, k.1, d] ![y + vp - v, v, y, vp] *
      pairOf G G false k.1 k.2.1 k.2.2.1 k.2.2.2 y (y + vp - v) * beta w b k.2.2.1 i k.2.1 := fun b d s hs k =>
        (term_int hG (hΓ false .t s hs) hm hζ
        (meas_legs _ _ _ _ (by fun_prop) (by fun_prop) (by fun_prop) (by fun_prop)) w _ _ _ _ _ _ _ _ _).2
  simp only [sumK, seen, meanBub, if_true, Pi.smul_apply, Pi.add_apply, bub_t, e0, e1, e2, e3, inner_t_left, inner_t_left',
    inner_t_right, inner_t_right', hh]
  have join : ∀ (κ A B C D : ℂ), (0.5 : ℝ) • (κ * A + κ * B) + (0.5 : ℝ) • (κ * C + κ * D) =
      (0.5 : ℝ) • (κ * (A + C) + κ * (B + D)) := by
    intro κ A B C D
    simp only [Complex.real_smul]; ring
  simp only [join]
  have JL : ∀ b d : Bool, _ := fun b d => integral_add (integrable_finsetSum Finset.univ fun k _ => (L0 b d 0 (by decide) k).add
    (L0 b d 1 (by decide) k)) (integrable_finsetSum Finset.univ fun k _ => (L0 b d 1 (by decide) k).neg)
  have JR : ∀ b d : Bool, _ := fun b d => integral_add (integrable_finsetSum Finset.univ fun k _ => (R0 b d 0 (by decide) k).add
    (R0 b d 1 (by decide) k)) (integrable_finsetSum Finset.univ fun k _ => (R0 b d 1 (by decide) k).neg)
  simp only [Pi.add_apply, Pi.neg_apply, ← Finset.sum_add_distrib, add_neg_cancel_right] at JL JR
  simp only [← JL, ← JR]
  rw [loop_sum]
  · congr 1
    refine integral_congr_ae (Filter.Eventually.of_forall fun y => ?_)
    let e : K6 ≃ K6 := ⟨fun k => (k.2.2.2.2.1, k.2.2.1, k.2.1, k.2.2.2.1, k.1, k.2.2.2.2.2),
      fun k => (k.2.2.2.2.1, k.2.2.1, k.2.1, k.2.2.2.1, k.1, k.2.2.2.2.2), fun _ => rfl, fun _ => rfl⟩
    simp only [dia]
    rw [← e.sum_comp, sum_six]
    refine Finset.sum_congr rfl fun b _ => Finset.sum_congr rfl fun d _ => ?_
    rw [← Finset.sum_add_distrib, Finset.mul_sum]
    refine Finset.sum_congr rfl fun k _ => ?_
    simp only [kern, pairOf, Bool.false_eq_true, if_false, e, Equiv.coe_fn_mk]
    rw [show vp + y - v = y + vp - v by ring, hx k.2.2.2 o k.1 d, (beta_perm w k.2.2.2 o k.1 d).1,
      (beta_perm w o k.2.2.2 k.1 d).2]
    ring
  · exact fun b d => integrable_finsetSum _ fun k _ => L0 b d 0 (by decide) k
  · exact fun b d => integrable_finsetSum _ fun k _ => R0 b d 0 (by decide) k
end

end Verif.Sde.Limit
