import Verif.Quad.Lemmas
import Mathlib.Analysis.SpecialFunctions.Integrals.Basic
import Mathlib.Tactic.Positivity

/-
C84: adaptive integration is exact for polynomials up to degree nine and keeps bounds, whatever subdivision it chooses.
C85: adaptive integration ends for every bounded integrand.
C86: splitting the integration domain.
-/
namespace Verif.Quad

open MeasureTheory

section
variable {E : Type} [NormedAddCommGroup E] [NormedSpace ℝ E]

/-- C84 (exactness).  For every polynomial integrand of degree at most nine with coefficients in any normed space
(numbers, complex numbers, matrices), every tolerance and every interval: if the integrator returns, then it returns
exactly the integral — unless the interval is empty or reversed, or its 13-point estimate is below `10⁻²⁰`, when it
returns zero. -/
theorem c84_polynomials [CompleteSpace E] (d : Nat) (hd : d ≤ 9) (c : Nat → E) (tol : ℝ) (n : Nat) (a b : ℝ) (v : E)
    (h : integrate tol (fun x => ∑ k ∈ Finset.range (d + 1), x ^ k • c k) n a b = some v) :
    v = ∫ x in a..b, ∑ k ∈ Finset.range (d + 1), x ^ k • c k ∨
      (v = 0 ∧ (‖estimate13 (fun x => ∑ k ∈ Finset.range (d + 1), x ^ k • c k) a b‖ < 1 / 10 ^ 20 ∨ b ≤ a)) := by
  rcases integrate_exact (exact_poly d hd c) tol n a b v h with h' | h'
  · exact Or.inr h'
  · left
    have hi : ∀ k ∈ Finset.range (d + 1), IntervalIntegrable (fun x : ℝ => x ^ k • c k) volume a b := fun k _ =>
      Continuous.intervalIntegrable (by fun_prop) _ _
    rw [h', intervalIntegral.integral_finset_sum hi, ← Finset.sum_sub_distrib]
    refine Finset.sum_congr rfl fun k _ => ?_
    rw [intervalIntegral.integral_smul_const, integral_pow, ← sub_smul, sub_div]

/-- C85.  For every integrand that is bounded on the interval the integrator ends: there is a depth of the recursion that
suffices, and the result does not depend on the depth allowed. -/
theorem c85_terminates (f : ℝ → E) (a b M : ℝ) (hM : ∀ x, a ≤ x → x ≤ b → ‖f x‖ ≤ M) (tol : ℝ) :
    ∃ N v, ∀ n, N ≤ n → integrate tol f n a b = some v := by
  by_cases hab : b ≤ a
  · refine ⟨0, 0, fun n _ => ?_⟩
    rw [integrate]
    rw [if_pos (Or.inr hab)]
  · have hab' : a ≤ b := (not_le.mp hab).le
    have ht : 0 < tolAbs := by unfold tolAbs; positivity
    obtain ⟨N, hN⟩ : ∃ N : Nat, 2 * (b - a) * M < tolAbs * 4 ^ N := by
      obtain ⟨N, hN⟩ := pow_unbounded_of_one_lt (2 * (b - a) * M / tolAbs) (by norm_num : (1 : ℝ) < 4)
      exact ⟨N, by rw [div_lt_iff₀ ht] at hN; linarith⟩
    suffices h : ∃ v, integrate tol f (N + 1) a b = some v by
      obtain ⟨v, hv⟩ := h
      exact ⟨N + 1, v, fun n hn => integrate_mono hv n hn⟩
    have hM0 : 0 ≤ M := le_trans (norm_nonneg _) (hM a le_rfl hab')
    have em : 1 / 2 * (b + a) = 1 / 2 * (a + b) := by ring
    obtain ⟨o1, o2, o3, o4, o5, o6, w1, w2, w3, w4, w5, w6⟩ := nodes_order hab'
    have small : ∀ c d : ℝ, 4 * (d - c) ≤ b - a → 2 * (d - c) * M < tolAbs * 4 ^ N := by
      intro c d hcd
      have := mul_le_mul_of_nonneg_right hcd hM0
      have : 0 ≤ (b - a) * M := mul_nonneg (by linarith) hM0
      nlinarith
    rw [integrate]
    simp only [neg_mul, ← sub_eq_add_neg, zero_mul, add_zero, em]
    split_ifs
    · exact ⟨_, rfl⟩
    · exact ⟨_, rfl⟩
    · obtain ⟨v1, h1⟩ := refine_terminates hM _ _ N _ _ le_rfl o1 (by linarith) (small _ _ w1)
      obtain ⟨v2, h2⟩ := refine_terminates hM _ _ N _ _ (by linarith) o2 (by linarith) (small _ _ w2)
      obtain ⟨v3, h3⟩ := refine_terminates hM _ _ N _ _ (by linarith) o3 (by linarith) (small _ _ w3)
      obtain ⟨v4, h4⟩ := refine_terminates hM _ _ N _ _ (by linarith) o4 (by linarith) (small _ _ w4)
      obtain ⟨v5, h5⟩ := refine_terminates hM _ _ N _ _ (by linarith) o5 (by linarith) (small _ _ w5)
      obtain ⟨v6, h6⟩ := refine_terminates hM _ _ N _ _ (by linarith) o6 le_rfl (small _ _ w6)
      rw [h1, h2, h3, h4, h5, h6]
      exact ⟨_, rfl⟩

/-- C84 (total correctness for polynomials).  On a proper interval, if the 13-point estimate is not tiny, there is a
depth from which on the exact integral is returned. -/
theorem c84_total [CompleteSpace E] (d : Nat) (hd : d ≤ 9) (c : Nat → E) (tol a b : ℝ) (hab : a < b)
    (he : 1 / 10 ^ 20 ≤ ‖estimate13 (fun x => ∑ k ∈ Finset.range (d + 1), x ^ k • c k) a b‖) :
    ∃ N, ∀ n, N ≤ n → integrate tol (fun x => ∑ k ∈ Finset.range (d + 1), x ^ k • c k) n a b =
      some (∫ x in a..b, ∑ k ∈ Finset.range (d + 1), x ^ k • c k) := by
  have hc : Continuous fun x : ℝ => ∑ k ∈ Finset.range (d + 1), x ^ k • c k := by fun_prop
  obtain ⟨M, hM⟩ := (isCompact_Icc (a := a) (b := b)).exists_bound_of_continuousOn hc.continuousOn
  obtain ⟨N, v, hv⟩ := c85_terminates _ a b M (fun x h1 h2 => hM x ⟨h1, h2⟩) tol
  refine ⟨N, fun n hn => ?_⟩
  rcases c84_polynomials d hd c tol n a b v (hv n hn) with h | ⟨-, h⟩
  · rw [hv n hn, h]
  · exfalso
    rcases h with h | h <;> linarith

/-- The cubic `x³` from 0 to 2. -/
example (tol : ℝ) : ∃ N, ∀ n, N ≤ n →
    integrate tol (fun x : ℝ => ∑ k ∈ Finset.range 4, x ^ k • (if k = 3 then 1 else 0 : ℝ)) n 0 2 = some 4 := by
  have h := c84_total 3 (by norm_num) (fun k => if k = 3 then 1 else 0 : Nat → ℝ) tol 0 2 (by norm_num) (by
    have a1 := alpha_sq
    have a2 := alpha_pos
    have b2 := beta_pos
    have hz : (0 : ℝ) < 1 - alpha := by have := alpha_lt; linarith
    have hy : (0 : ℝ) < 1 - beta := by have := beta_lt; linarith
    simp only [estimate13, kronrod13, smul_eq_mul, Real.norm_eq_abs, Finset.sum_range_succ, Finset.sum_range_zero]
    norm_num [x1, x2, x3]
    rw [abs_of_nonneg (by
      have e1 : 0 ≤ (1 + -alpha) ^ 3 := by apply pow_nonneg; linarith
      have e2 : 0 ≤ (1 + -beta) ^ 3 := by apply pow_nonneg; linarith
      have e3 : 0 ≤ (1 + alpha) ^ 3 := by positivity
      have e4 : 0 ≤ (1 + beta) ^ 3 := by positivity
      linarith)]
    have e1 : 0 ≤ (1 + -alpha) ^ 3 := by apply pow_nonneg; linarith
    have e2 : 0 ≤ (1 + -beta) ^ 3 := by apply pow_nonneg; linarith
    have e3 : 0 ≤ (1 + alpha) ^ 3 := by positivity
    have e4 : 0 ≤ (1 + beta) ^ 3 := by positivity
    linarith)
  have e : (∫ x in (0 : ℝ)..2, ∑ k ∈ Finset.range 4, x ^ k • (if k = 3 then 1 else 0 : ℝ)) = 4 := by
    simp [Finset.sum_range_succ, integral_pow]
    norm_num
  rw [e] at h
  exact h

end

/-! Bounds. -/

theorem kronrod7_between {h lo hi : ℝ} {f1 f2 f3 f4 f5 f6 f7 : ℝ} (hh : 0 ≤ h)
    (b : ∀ y ∈ [f1, f2, f3, f4, f5, f6, f7], lo ≤ y ∧ y ≤ hi) :
    lo * (2 * h) ≤ kronrod7 h f1 f2 f3 f4 f5 f6 f7 ∧ kronrod7 h f1 f2 f3 f4 f5 f6 f7 ≤ hi * (2 * h) := by
  simp only [List.mem_cons, List.not_mem_nil, or_false, forall_eq_or_imp, forall_eq] at b
  obtain ⟨⟨l1, u1⟩, ⟨l2, u2⟩, ⟨l3, u3⟩, ⟨l4, u4⟩, ⟨l5, u5⟩, ⟨l6, u6⟩, ⟨l7, u7⟩⟩ := b
  simp only [kronrod7, smul_eq_mul]
  constructor
  · have : lo * 2940 ≤ 77 * (f1 + f7) + 432 * (f2 + f6) + 625 * (f3 + f5) + 672 * f4 := by linarith
    have := mul_le_mul_of_nonneg_left this (by positivity : 0 ≤ h / 1470)
    linarith
  · have : 77 * (f1 + f7) + 432 * (f2 + f6) + 625 * (f3 + f5) + 672 * f4 ≤ hi * 2940 := by linarith
    have := mul_le_mul_of_nonneg_left this (by positivity : 0 ≤ h / 1470)
    linarith

theorem refine_between {f : ℝ → ℝ} {A B lo hi : ℝ} (hM : ∀ x, A ≤ x → x ≤ B → lo ≤ f x ∧ f x ≤ hi)
    (tolRel is : ℝ) : ∀ (n : Nat) (a b v : ℝ), A ≤ a → a ≤ b → b ≤ B →
      refine f tolRel is n a b (f a) (f b) = some v → lo * (b - a) ≤ v ∧ v ≤ hi * (b - a) := by
  intro n
  induction n with
  | zero => intro a b v _ _ _ h; simp [refine] at h
  | succ n ih =>
    intro a b v hA hab hB h
    obtain ⟨o1, o2, o3, o4, o5, o6, -⟩ := nodes_order hab
    rw [refine] at h
    split_ifs at h with hc
    · rw [Option.some.injEq] at h
      have := kronrod7_between (lo := lo) (hi := hi) (h := 1 / 2 * (b - a)) (by linarith) (f1 := f a)
        (f2 := f (1 / 2 * (a + b) - alpha * (1 / 2 * (b - a)))) (f3 := f (1 / 2 * (a + b) - beta * (1 / 2 * (b - a))))
        (f4 := f (1 / 2 * (a + b))) (f5 := f (1 / 2 * (a + b) + beta * (1 / 2 * (b - a))))
        (f6 := f (1 / 2 * (a + b) + alpha * (1 / 2 * (b - a)))) (f7 := f b) (by
          simp only [List.mem_cons, List.not_mem_nil, or_false, forall_eq_or_imp, forall_eq]
          refine ⟨hM _ ?_ ?_, hM _ ?_ ?_, hM _ ?_ ?_, hM _ ?_ ?_, hM _ ?_ ?_, hM _ ?_ ?_, hM _ ?_ ?_⟩ <;> linarith)
      rw [h] at this
      constructor <;> linarith [this.1, this.2]
    · simp only [Option.bind_eq_bind, Option.bind_eq_some_iff, pure, Option.some.injEq] at h
      obtain ⟨s1, h1, s2, h2, s3, h3, s4, h4, s5, h5, s6, h6, rfl⟩ := h
      have r1 := ih _ _ _ hA o1 (by linarith) h1
      have r2 := ih _ _ _ (by linarith) o2 (by linarith) h2
      have r3 := ih _ _ _ (by linarith) o3 (by linarith) h3
      have r4 := ih _ _ _ (by linarith) o4 (by linarith) h4
      have r5 := ih _ _ _ (by linarith) o5 (by linarith) h5
      have r6 := ih _ _ _ (by linarith) o6 hB h6
      constructor <;> linarith [r1.1, r2.1, r3.1, r4.1, r5.1, r6.1, r1.2, r2.2, r3.2, r4.2, r5.2, r6.2]

/-- C84 (bounds).  For every real integrand with `lo ≤ f ≤ hi` on the interval, every result is between `lo` and `hi` times
the length of the interval (so non-negative integrands never give negative results), or zero in the cases above. -/
theorem c84_bounds (f : ℝ → ℝ) (a b lo hi : ℝ) (hf : ∀ x, a ≤ x → x ≤ b → lo ≤ f x ∧ f x ≤ hi) (tol : ℝ) (n : Nat)
    (v : ℝ) (h : integrate tol f n a b = some v) :
    (lo * (b - a) ≤ v ∧ v ≤ hi * (b - a)) ∨ (v = 0 ∧ (|estimate13 f a b| < 1 / 10 ^ 20 ∨ b ≤ a)) := by
  have em : 1 / 2 * (b + a) = 1 / 2 * (a + b) := by ring
  rw [integrate] at h
  simp only [neg_mul, ← sub_eq_add_neg, zero_mul, add_zero, em] at h
  split_ifs at h with h1 h2
  · exact Or.inr ⟨(Option.some.inj h).symm, h1⟩
  · left
    have hab : a ≤ b := (not_le.mp (fun h' => h1 (Or.inr h'))).le
    obtain ⟨o1, o2, o3, o4, o5, o6, -⟩ := nodes_order hab
    rw [Option.some.injEq] at h
    have := kronrod7_between (lo := lo) (hi := hi) (h := 1 / 2 * (b - a)) (by linarith) (f1 := f a)
      (f2 := f (1 / 2 * (a + b) - alpha * (1 / 2 * (b - a)))) (f3 := f (1 / 2 * (a + b) - beta * (1 / 2 * (b - a))))
      (f4 := f (1 / 2 * (a + b))) (f5 := f (1 / 2 * (a + b) + beta * (1 / 2 * (b - a))))
      (f6 := f (1 / 2 * (a + b) + alpha * (1 / 2 * (b - a)))) (f7 := f b) (by
        simp only [List.mem_cons, List.not_mem_nil, or_false, forall_eq_or_imp, forall_eq]
        refine ⟨hf _ ?_ ?_, hf _ ?_ ?_, hf _ ?_ ?_, hf _ ?_ ?_, hf _ ?_ ?_, hf _ ?_ ?_, hf _ ?_ ?_⟩ <;> linarith)
    rw [h] at this
    constructor <;> linarith [this.1, this.2]
  · left
    have hab : a ≤ b := (not_le.mp (fun h' => h1 (Or.inr h'))).le
    obtain ⟨o1, o2, o3, o4, o5, o6, -⟩ := nodes_order hab
    simp only [Option.bind_eq_bind, Option.bind_eq_some_iff, pure, Option.some.injEq] at h
    obtain ⟨s1, h1, s2, h2, s3, h3, s4, h4, s5, h5, s6, h6, rfl⟩ := h
    have r1 := refine_between hf _ _ _ _ _ _ le_rfl o1 (by linarith) h1
    have r2 := refine_between hf _ _ _ _ _ _ (by linarith) o2 (by linarith) h2
    have r3 := refine_between hf _ _ _ _ _ _ (by linarith) o3 (by linarith) h3
    have r4 := refine_between hf _ _ _ _ _ _ (by linarith) o4 (by linarith) h4
    have r5 := refine_between hf _ _ _ _ _ _ (by linarith) o5 (by linarith) h5
    have r6 := refine_between hf _ _ _ _ _ _ (by linarith) o6 le_rfl h6
    constructor <;> linarith [r1.1, r2.1, r3.1, r4.1, r5.1, r6.1, r1.2, r2.2, r3.2, r4.2, r5.2, r6.2]

/-- C84 fails for reversed limits: the integral from 1 to 0 of the constant 1 is returned as 0 instead of -1. -/
theorem c84_reversed_refuted (tol : ℝ) (n : Nat) : integrate tol (fun _ => (1 : ℝ)) n 1 0 = some 0 ∧
    ∫ _ in (1 : ℝ)..0, (1 : ℝ) = -1 := by
  constructor
  · rw [integrate, if_pos (Or.inr (by norm_num))]
  · simp

/-- C84 fails for small integrands: the constant `10⁻²¹` integrates to 0, whatever the tolerance. -/
theorem c84_small_refuted (tol : ℝ) (n : Nat) : integrate tol (fun _ => (1 / 10 ^ 21 : ℝ)) n 0 1 = some 0 ∧
    ∫ _ in (0 : ℝ)..1, (1 / 10 ^ 21 : ℝ) = 1 / 10 ^ 21 := by
  constructor
  · rw [integrate, if_pos]
    left
    simp only [estimate13, kronrod13, smul_eq_mul, Real.norm_eq_abs]
    rw [abs_of_nonneg (by norm_num)]
    norm_num
  · simp

/-- The thirteen points at which the first estimate samples the interval from 0 to 1. -/
noncomputable def samples : List ℝ :=
  [0, 1 / 2 + -x1 * (1 / 2), 1 / 2 + -alpha * (1 / 2), 1 / 2 + -x2 * (1 / 2), 1 / 2 + -beta * (1 / 2),
   1 / 2 + -x3 * (1 / 2), 1 / 2, 1 / 2 + x3 * (1 / 2), 1 / 2 + beta * (1 / 2), 1 / 2 + x2 * (1 / 2),
   1 / 2 + alpha * (1 / 2), 1 / 2 + x1 * (1 / 2), 1]

/-- C84 fails in general, whatever the tolerance: there are continuous non-negative integrands with any given integral
for which 0 is returned. -/
theorem c84_missed_refuted (C : ℝ) (hC : 0 < C) : ∃ f : ℝ → ℝ, Continuous f ∧ (∀ x, 0 ≤ f x) ∧
    ∫ x in (0 : ℝ)..1, f x = C ∧ ∀ tol n, integrate tol f n 0 1 = some 0 := by
  let g : ℝ → ℝ := fun x => (samples.map fun y => (x - y) ^ 2).prod
  have hg : Continuous g := by
    simp only [g, samples, List.map_cons, List.map_nil, List.prod_cons, List.prod_nil]
    fun_prop
  have hg0 : ∀ x, 0 ≤ g x := fun x => by
    apply List.prod_nonneg
    intro y hy
    obtain ⟨z, _, rfl⟩ := List.mem_map.mp hy
    positivity
  have hgz : ∀ y ∈ samples, g y = 0 := fun y hy => by
    apply List.prod_eq_zero
    exact List.mem_map.mpr ⟨y, hy, by simp⟩
  have hpos : 0 < ∫ x in (0 : ℝ)..1, g x := by
    apply intervalIntegral.integral_pos (by norm_num) hg.continuousOn (fun x _ => hg0 x)
    refine ⟨1 / 4, ⟨by norm_num, by norm_num⟩, lt_of_le_of_ne (hg0 _) ?_⟩
    symm
    intro h
    have := List.prod_eq_zero_iff.mp h
    obtain ⟨y, hy, he⟩ := List.mem_map.mp this
    have he' : y = 1 / 4 := by
      have := pow_eq_zero_iff (two_ne_zero) |>.mp he
      linarith
    have a1 := alpha_lt
    have a2 := lt_alpha
    have b1 := beta_lt
    have b2 := lt_beta
    simp only [samples, List.mem_cons, List.not_mem_nil, or_false, x1, x2, x3] at hy
    rcases hy with h | h | h | h | h | h | h | h | h | h | h | h | h <;> linarith
  refine ⟨fun x => C / (∫ x in (0 : ℝ)..1, g x) * g x, by fun_prop, fun x => by have := hg0 x; positivity, ?_, ?_⟩
  · rw [intervalIntegral.integral_const_mul, div_mul_cancel₀ _ hpos.ne']
  · intro tol n
    rw [integrate, if_pos]
    left
    have z : ∀ y, y ∈ samples → C / (∫ x in (0 : ℝ)..1, g x) * g y = 0 := fun y hy => by rw [hgz y hy, mul_zero]
    have : estimate13 (fun x => C / (∫ x in (0 : ℝ)..1, g x) * g x) 0 1 = 0 := by
      have e1 : (1 / 2 : ℝ) * (1 + 0) = 1 / 2 := by norm_num
      have e2 : (1 / 2 : ℝ) * (1 - 0) = 1 / 2 := by norm_num
      simp only [estimate13, e1, e2, zero_mul, add_zero, mul_one]
      rw [z 0 (by simp [samples]), z (1 / 2 + -x1 * (1 / 2)) (by simp [samples]),
        z (1 / 2 + -alpha * (1 / 2)) (by simp [samples]), z (1 / 2 + -x2 * (1 / 2)) (by simp [samples]),
        z (1 / 2 + -beta * (1 / 2)) (by simp [samples]), z (1 / 2 + -x3 * (1 / 2)) (by simp [samples]),
        z (1 / 2) (by simp [samples]), z (1 / 2 + x3 * (1 / 2)) (by simp [samples]),
        z (1 / 2 + beta * (1 / 2)) (by simp [samples]), z (1 / 2 + x2 * (1 / 2)) (by simp [samples]),
        z (1 / 2 + alpha * (1 / 2)) (by simp [samples]), z (1 / 2 + x1 * (1 / 2)) (by simp [samples]),
        z 1 (by simp [samples])]
      simp [kronrod13]
    rw [this, norm_zero]
    norm_num

end Verif.Quad
