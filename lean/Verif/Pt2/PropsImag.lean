import Verif.Pt2.ModelImag
import Verif.Sde.PropsThird
import Verif.ImagFlow.Cases
import Verif.Imag.PropsTotal

/-! C165 at imaginary frequencies. -/
namespace Verif.Pt2.Mats
open Verif.Symmetries Verif.ImagFlow Verif.Sde.Imag
open Verif.Freqs (Ch)

section
variable {𝕜 : Type} [RCLike 𝕜] {u : ImagFlow.Setup 𝕜} {bare : VF 𝕜} {σ : SF 𝕜} {Λ : ℝ}

/-- Weight of a pair of propagators between two bare vertices. -/
def weight (w : 𝕜) (c : Ch) (o1 o2 i1 i2 : Verif.Imag.Leg ℤ) (a b : Bool) : 𝕜 :=
  Verif.Imag.term ⟨bareU w⟩ ⟨bareU w⟩ (fun _ _ => 1) c o1 o2 i1 i2 0 0 a b

/-- Every summand of a bubble of two bare vertices is a multiple of the pair of propagators. -/
theorem term_weight {w : 𝕜} (P : ℤ → ℤ → 𝕜) (c : Ch) (o1 o2 i1 i2 : Verif.Imag.Leg ℤ) (y z : ℤ) (a b : Bool) :
    Verif.Imag.term ⟨bareU w⟩ ⟨bareU w⟩ P c o1 o2 i1 i2 y z a b =
      weight w c o1 o2 i1 i2 a b * P y z := by
  have e : ∀ A B C : 𝕜, A * B * C = A * 1 * C * B := fun A B C => by ring
  cases c <;> simp only [weight, Verif.Imag.term]
  · exact e _ _ _
  · split
    · exact e _ _ _
    · simp
  · exact e _ _ _

theorem pair_deriv (hG : DiffLines u (fun _ => σ) 0 Λ) {y z : ℤ} (hy : y % 2 = 1) (hz : z % 2 = 1) :
    HasDerivAt (fun l => pair u l σ y z) (dpair u Λ σ 0 y z) Λ := by
  obtain ⟨m, rfl⟩ : ∃ m, y = 2 * m + 1 := ⟨y / 2, by omega⟩
  obtain ⟨n, rfl⟩ : ∃ n, z = 2 * n + 1 := ⟨z / 2, by omega⟩
  have := ((hG m).mul (hG n)).const_mul (if u.ph then (-1 : 𝕜) else 1)
  refine this.congr_deriv ?_
  simp only [dpair, Verif.Imag.pairOf, if_true]
  ring

/-- C165, what holds at imaginary frequencies: if flow and perturbation theory used the same self-energy, every component of
the one-loop contribution would be the derivative of the vertex of second order. Without particle-hole symmetry they do;
with it they do not (`c165_imag_refuted`). -/
theorem c165_imag_partial {w : 𝕜} (hG : DiffLines u (fun _ => σ) 0 Λ) (h : Bool) (c : Ch) (s : Nat) (α : Fin 4 → Bool) (ν : Fin 4 → ℤ) :
    HasDerivAt (fun l => bub u (bareU w) (bareU w) (pair u l σ) h c s α ν) (bub u (bareU w) (bareU w) (dpair u Λ σ 0) h c s α ν) Λ := by
  simp only [bub, Pi.smul_apply, Verif.Imag.bubble]
  refine HasDerivAt.const_smul u.T ?_
  split
  swap
  · exact hasDerivAt_const _ _
  refine HasDerivAt.const_mul _ ?_
  simp only [ite_self, Verif.Imag.finiteTotal, Verif.Imag.inner, term_weight (w := w)]
  refine HasDerivAt.fun_sum (A := fun y l => ∑ q : Bool × Bool, weight w c ⟨true, ν 0⟩ ⟨false, ν 1⟩ ⟨s == 0, ν 2⟩ ⟨s != 0, ν 3⟩ q.1 q.2 * pair u l σ y (Verif.Imag.partner c (Verif.Imag.transfer c ν) y)) fun y hy => ?_
  refine HasDerivAt.fun_sum (A := fun (q : Bool × Bool) l => weight w c ⟨true, ν 0⟩ ⟨false, ν 1⟩ ⟨s == 0, ν 2⟩ ⟨s != 0, ν 3⟩ q.1 q.2 * pair u l σ y (Verif.Imag.partner c (Verif.Imag.transfer c ν) y)) fun q _ => ?_
  refine HasDerivAt.const_mul _ (pair_deriv hG ?_ ?_)
  · exact (Finset.mem_filter.1 hy).2.1
  · have h2 := (Finset.mem_filter.1 hy).2.2.1
    cases c <;> simp only [Verif.Imag.partner] at h2 ⊢
    · simpa using h2
    · simp only [if_true] at h2; omega
    · simpa using h2

/-- Non-vacuity: real values with the self-energy of a bare state. -/
example (p : Propagator.Par) (hT : 0 < p.T) (hg : 0 ≤ p.Gam) (hΛ : 0 ≤ Λ) (U : ℝ) (c : Ch) (ν : Fin 4 → ℤ) :
    HasDerivAt (fun l => vertex2 ⟨10, p.T, true, linesR .r2 p⟩ U l (bareU (-U)) false c 0 Verif.Imag.k0 ν)
      (bub ⟨10, p.T, true, linesR .r2 p⟩ (bareU (-U)) (bareU (-U)) (dpair ⟨10, p.T, true, linesR .r2 p⟩ Λ 0 0) false c 0 Verif.Imag.k0 ν) Λ :=
  c165_imag_partial (c163_lines_real p hT hg hΛ (fun _ => hasDerivAt_const _ _) (fun _ => (zero_mul _).le) 10 true) ..
end

theorem cubes_lt {a s : ℝ} (hs : s ≠ 0) (h : |s| < a) : 2 / a ^ 3 < 1 / (a - s) ^ 3 + 1 / (a + s) ^ 3 := by
  have ha : 0 < a := (abs_nonneg s).trans_lt h
  have h1 : 0 < a - s := by linarith [le_abs_self s]
  have h2 : 0 < a + s := by linarith [neg_abs_le s]
  rw [div_add_div _ _ (by positivity) (by positivity), div_lt_div_iff₀ (by positivity) (by positivity), ← mul_pow]
  have hq : 0 < s ^ 2 := by positivity
  have e : (a - s) * (a + s) = a ^ 2 - s ^ 2 := by ring
  have hp : 0 < a ^ 2 - s ^ 2 := by rw [← e]; positivity
  rw [e]
  have l : (a ^ 2 - s ^ 2) ^ 3 ≤ (a ^ 2) ^ 3 := pow_le_pow_left₀ hp.le (by linarith) 3
  have : 0 < a * s ^ 2 * a ^ 3 := by positivity
  nlinarith

/-- Twice propagator times single-scale propagator, with the sign of a pair. -/
theorem line_value (p : Propagator.Par) (Λ s : ℝ) (v : ℤ) (hv : v ≠ 0) :
    dpair ⟨0, p.T, true, linesR .r2 p⟩ Λ (fun _ => s) 0 v v =
      1 / (|(v : ℝ)| * (Real.pi * p.T) + (p.Gam + Λ) / 2 - (if 0 < v then s else -s)) ^ 3 := by
  have hv' : (v : ℝ) ≠ 0 := by exact_mod_cast hv
  have hg : ∀ S : ℝ, (Propagator.gM2 true (Real.pi * p.T) { p with Lam := Λ, v := v } S) =
      ((1 / (v * (Real.pi * p.T) + p.Gam * 0.5 * Propagator.sign v + Λ * 0.5 * Propagator.sign v - S) : ℝ) : ℂ) := by
    intro S
    simp only [Propagator.gM2, Propagator.g0Minv, if_true]
    push_cast
    rfl
  have hG : lineG ⟨0, p.T, true, linesR .r2 p⟩ Λ (fun _ => s) v =
      1 / (v * (Real.pi * p.T) + p.Gam * 0.5 * Propagator.sign v + Λ * 0.5 * Propagator.sign v - s) := by
    simp only [lineG, linesR, hg, Complex.ofReal_re]
  have hS : lineS ⟨0, p.T, true, linesR .r2 p⟩ Λ (fun _ => s) 0 v = -0.5 * (lineG ⟨0, p.T, true, linesR .r2 p⟩ Λ (fun _ => s) v) ^ 2 * Propagator.sign v := by
    rw [hG]
    have : ∀ x y : ℝ, ((-0.5 : ℂ) * (x : ℂ) * x * (y : ℂ)).re = -0.5 * x ^ 2 * y := by
      intro x y
      rw [show (-0.5 : ℂ) * (x : ℂ) * x * (y : ℂ) = ((-0.5 * x ^ 2 * y : ℝ) : ℂ) by push_cast; ring, Complex.ofReal_re]
    simp only [lineS, lineE, linesR, Propagator.sM2, hg, if_true, this, Pi.zero_apply, mul_zero, zero_mul, add_zero]
  have hd : dpair ⟨0, p.T, true, linesR .r2 p⟩ Λ (fun _ => s) 0 v v = Propagator.sign v * (lineG ⟨0, p.T, true, linesR .r2 p⟩ Λ (fun _ => s) v) ^ 3 := by
    simp only [dpair, Verif.Imag.pairOf, if_true, hS]
    ring
  rw [hd, hG]
  rcases lt_or_gt_of_ne hv with h | h
  · have h' : (v : ℝ) < 0 := by exact_mod_cast h
    have hsgn : Propagator.sign (v : ℝ) = -1 := by simp [Propagator.sign, h', not_lt.2 h'.le]
    rw [hsgn, if_neg (not_lt.2 h.le), abs_of_neg h', div_pow, one_pow]
    rw [show (v : ℝ) * (Real.pi * p.T) + p.Gam * 0.5 * -1 + Λ * 0.5 * -1 - s = -(-(v : ℝ) * (Real.pi * p.T) + (p.Gam + Λ) / 2 - -s) by ring]
    rw [neg_mul, one_mul, Odd.neg_pow (by decide), div_neg, neg_neg]
  · have h' : 0 < (v : ℝ) := by exact_mod_cast h
    have hsgn : Propagator.sign (v : ℝ) = 1 := by simp [Propagator.sign, h', not_lt.2 h'.le]
    rw [hsgn, if_pos h, abs_of_pos h', div_pow, one_pow, one_mul]
    congr 2
    ring

theorem mem_window (N : Nat) (y : ℤ) : y ∈ Verif.Imag.window N .a 0 ↔ y % 2 = 1 ∧ y ≤ 2 * N - 1 ∧ -(2 * N - 1) ≤ y := by
  simp only [Verif.Imag.window, Finset.mem_filter, Finset.mem_Icc]
  constructor
  · rintro ⟨h1, h2, h3, h4, h5⟩
    simp at h4 h5
    omega
  · rintro ⟨h1, h2, h3⟩
    simp
    omega

theorem bubble_value (u : ImagFlow.Setup ℝ) (w : ℝ) (P : ℤ → ℤ → ℝ) : bub u (bareU w) (bareU w) P false .a 0 Verif.Imag.k0 (fun _ => 1) =
    u.T * (w ^ 2 * ∑ y ∈ Verif.Imag.window u.pos .a 0, P y y) := by
  simp only [bub, Pi.smul_apply, smul_eq_mul, Verif.Imag.bubble, if_true, Verif.Imag.transfer, sub_self, Verif.Imag.finiteTotal,
    Verif.Imag.partner, add_zero, Verif.Imag.loopSign, one_mul, Finset.mul_sum]
  refine Finset.sum_congr rfl fun y _ => ?_
  simp only [Verif.Imag.inner, Fintype.sum_prod_type, Fintype.sum_bool]
  simp [Verif.Imag.term, Verif.Imag.legVal, bareU]
  left
  ring

/-- C165, refuted at imaginary frequencies: with particle-hole symmetry, for every interaction other than zero (and less than
twice the smallest denominator) and every range of the frequency sums, the flow of the vertex is not the derivative of the
vertex of second order: the constant `U / 2`, which is the real part of the self-energy, is taken for the imaginary one. -/
theorem c165_imag_refuted {p : Propagator.Par} (hT : 0 < p.T) (hg : 0 ≤ p.Gam) {Λ U : ℝ} (hΛ : 0 ≤ Λ) (hU : U ≠ 0)
    (hs : |U / 2| < Real.pi * p.T + (p.Gam + Λ) / 2) {pos : Nat} (hpos : 1 ≤ pos) :
    ¬ HasDerivAt (fun l => vertex2 ⟨pos, p.T, true, linesR .r2 p⟩ U l (bareU (-U)) false .a 0 Verif.Imag.k0 fun _ => 1)
      (flow2 ⟨pos, p.T, true, linesR .r2 p⟩ U Λ (bareU (-U)) false .a 0 Verif.Imag.k0 fun _ => 1) Λ := by
  intro hd
  have hl : DiffLines ⟨pos, p.T, true, linesR .r2 p⟩ (fun _ => (0 : SF ℝ)) 0 Λ :=
    c163_lines_real p hT hg hΛ (fun v => hasDerivAt_const _ _) (fun n => (zero_mul _).le) pos true
  have h0 := c165_imag_partial (w := -U) hl false .a 0 Verif.Imag.k0 fun _ => 1
  have e := hd.unique h0
  simp only [flow2, bubble_value] at e
  have hne : p.T * (-U) ^ 2 ≠ 0 := mul_ne_zero hT.ne' (pow_ne_zero 2 (neg_ne_zero.2 hU))
  rw [← mul_assoc, ← mul_assoc] at e
  have e2 := mul_left_cancel₀ hne e
  refine absurd e2 (ne_of_gt ?_)
  set W := Verif.Imag.window pos .a 0 with hW
  have val : ∀ s : ℝ, ∑ y ∈ W, dpair ⟨pos, p.T, true, linesR .r2 p⟩ Λ (fun _ => s) 0 y y =
      ∑ y ∈ W, 1 / (|(y : ℝ)| * (Real.pi * p.T) + (p.Gam + Λ) / 2 - (if 0 < y then s else -s)) ^ 3 := by
    intro s
    refine Finset.sum_congr rfl fun y hy => ?_
    have := ((mem_window pos y).1 hy).1
    exact line_value p Λ s y (by omega)
  have hz : (0 : SF ℝ) = fun _ => (0 : ℝ) := rfl
  have hb : (bareSE U : SF ℝ) = fun _ => U / 2 := rfl
  rw [hb]
  show ∑ y ∈ W, dpair ⟨pos, p.T, true, linesR .r2 p⟩ Λ 0 0 y y < ∑ y ∈ W, dpair ⟨pos, p.T, true, linesR .r2 p⟩ Λ (fun _ => U / 2) 0 y y
  have v0 := val 0
  rw [show (fun _ => (0 : ℝ)) = (0 : SF ℝ) from rfl] at v0
  rw [v0, val (U / 2)]
  have refl : ∀ f : ℤ → ℝ, ∑ y ∈ W, f y = ∑ y ∈ W, f (-y) := by
    intro f
    refine Finset.sum_bij' (fun y _ => -y) (fun y _ => -y) ?_ ?_ ?_ ?_ ?_
    · intro y hy; rw [hW, mem_window] at *; omega
    · intro y hy; rw [hW, mem_window] at *; omega
    · intro y _; ring
    · intro y _; ring
    · intro y _; simp
  have two : ∀ f : ℤ → ℝ, 2 * ∑ y ∈ W, f y = ∑ y ∈ W, (f y + f (-y)) := by
    intro f
    rw [Finset.sum_add_distrib, ← refl f]; ring
  refine lt_of_mul_lt_mul_left ?_ (zero_le_two (α := ℝ))
  rw [two, two]
  refine Finset.sum_lt_sum_of_nonempty ⟨1, by rw [hW, mem_window]; omega⟩ fun y hy => ?_
  have hy1 := ((mem_window pos y).1 hy).1
  have hy0 : y ≠ 0 := by omega
  set a := |(y : ℝ)| * (Real.pi * p.T) + (p.Gam + Λ) / 2 with ha
  have hya : 1 ≤ |(y : ℝ)| := by
    rw [← Int.cast_abs]
    exact_mod_cast Int.one_le_abs hy0
  have hpt : 0 < Real.pi * p.T := mul_pos Real.pi_pos hT
  have hlt : |U / 2| < a := by nlinarith
  have key := cubes_lt (s := U / 2) (by positivity) hlt
  have hneg : |((-y : ℤ) : ℝ)| * (Real.pi * p.T) + (p.Gam + Λ) / 2 = a := by rw [ha]; push_cast; rw [abs_neg]
  rw [hneg]
  rcases lt_or_gt_of_ne hy0 with h | h
  · rw [if_neg (not_lt.2 h.le), if_pos (by omega), if_neg (not_lt.2 h.le), if_pos (by omega)]
    simp only [neg_zero, sub_zero, sub_neg_eq_add]
    rw [← two_mul, mul_one_div]
    linarith
  · rw [if_pos h, if_neg (by omega), if_pos h, if_neg (by omega)]
    simp only [neg_zero, sub_zero, sub_neg_eq_add]
    rw [← two_mul, mul_one_div]
    linarith

/-- Non-vacuity: the parameters `U = 1`, `Γ = 1/5`, `T = 1`, and `Λ = 1`. -/
example : ¬ HasDerivAt (fun l => vertex2 ⟨10, 1, true, linesR .r2 ⟨0, 0, 1/5, 1, 0, 0⟩⟩ 1 l (bareU (-1)) false .a 0 Verif.Imag.k0 fun _ => 1)
    (flow2 ⟨10, 1, true, linesR .r2 ⟨0, 0, 1/5, 1, 0, 0⟩⟩ 1 1 (bareU (-1)) false .a 0 Verif.Imag.k0 fun _ => 1) 1 :=
  c165_imag_refuted (p := ⟨0, 0, 1/5, 1, 0, 0⟩) (by norm_num) (by norm_num) (by norm_num) one_ne_zero
    (by have := Real.pi_gt_three; rw [abs_of_pos] <;> norm_num; linarith) (by norm_num)

end Verif.Pt2.Mats
