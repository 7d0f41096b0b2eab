import Verif.Quad.Model
import Mathlib.Tactic.Linarith
import Mathlib.Tactic.LinearCombination
import Mathlib.Tactic.Module
import Mathlib.Tactic.FieldSimp
import Mathlib.Algebra.BigOperators.Fin
import Mathlib.Tactic.FinCases
import Mathlib.Tactic.IntervalCases

namespace Verif.Quad

variable {E : Type} [NormedAddCommGroup E] [NormedSpace ℝ E]

theorem alpha_sq : alpha ^ 2 = 2 / 3 := by
  rw [alpha, Real.sq_sqrt (by norm_num)]

theorem alpha_pos : 0 < alpha := Real.sqrt_pos.mpr (by norm_num)

theorem beta_sq : beta ^ 2 = 1 / 5 := by
  rw [beta, div_pow, Real.sq_sqrt (by norm_num)]; norm_num

theorem beta_pos : 0 < beta := div_pos one_pos (Real.sqrt_pos.mpr (by norm_num))

theorem alpha_lt : alpha < 82 / 100 := by
  have := alpha_sq; have := alpha_pos; nlinarith

theorem lt_alpha : 81 / 100 < alpha := by
  have := alpha_sq; have := alpha_pos; nlinarith

theorem beta_lt : beta < 45 / 100 := by
  have := beta_sq; have := beta_pos; nlinarith

theorem lt_beta : 44 / 100 < beta := by
  have := beta_sq; have := beta_pos; nlinarith

/-- `(m - y) ^ k + (m + y) ^ k` in terms of `t = y ^ 2`. -/
def pairPoly (k : Nat) (m t : ℝ) : ℝ := match k with
  | 0 => 2
  | 1 => 2 * m
  | 2 => 2 * (m ^ 2 + t)
  | 3 => 2 * (m ^ 3 + 3 * m * t)
  | 4 => 2 * (m ^ 4 + 6 * m ^ 2 * t + t ^ 2)
  | 5 => 2 * (m ^ 5 + 10 * m ^ 3 * t + 5 * m * t ^ 2)
  | 6 => 2 * (m ^ 6 + 15 * m ^ 4 * t + 15 * m ^ 2 * t ^ 2 + t ^ 3)
  | 7 => 2 * (m ^ 7 + 21 * m ^ 5 * t + 35 * m ^ 3 * t ^ 2 + 7 * m * t ^ 3)
  | 8 => 2 * (m ^ 8 + 28 * m ^ 6 * t + 70 * m ^ 4 * t ^ 2 + 28 * m ^ 2 * t ^ 3 + t ^ 4)
  | _ => 2 * (m ^ 9 + 36 * m ^ 7 * t + 126 * m ^ 5 * t ^ 2 + 84 * m ^ 3 * t ^ 3 + 9 * m * t ^ 4)

/-- Exactness of the 7-point rule for one power, on the interval with centre `m` and half width `h`. -/
theorem kronrod7_pow (k : Nat) (hk : k ≤ 9) (m h : ℝ) :
    kronrod7 h ((m - h) ^ k) ((m - alpha * h) ^ k) ((m - beta * h) ^ k) (m ^ k) ((m + beta * h) ^ k)
      ((m + alpha * h) ^ k) ((m + h) ^ k) = ((m + h) ^ (k + 1) - (m - h) ^ (k + 1)) / (k + 1) := by
  have pair : ∀ y : ℝ, (m - y) ^ k + (m + y) ^ k =
      pairPoly k m (y ^ 2) := by
    intro y
    interval_cases k <;> simp only [pairPoly] <;> ring
  have ea : (alpha * h) ^ 2 = 2 / 3 * h ^ 2 := by rw [mul_pow, alpha_sq]
  have eb : (beta * h) ^ 2 = 1 / 5 * h ^ 2 := by rw [mul_pow, beta_sq]
  have pa := pair (alpha * h)
  have pb := pair (beta * h)
  have p1 := pair h
  rw [ea] at pa
  rw [eb] at pb
  simp only [kronrod7, smul_eq_mul]
  have : (h / 1470 * (77 * ((m - h) ^ k + (m + h) ^ k) + 432 * ((m - alpha * h) ^ k + (m + alpha * h) ^ k) +
      625 * ((m - beta * h) ^ k + (m + beta * h) ^ k) + 672 * m ^ k)) =
      ((m + h) ^ (k + 1) - (m - h) ^ (k + 1)) / (k + 1) := by
    rw [p1, pa, pb]
    interval_cases k <;> simp only [pairPoly] <;> norm_num <;> ring
  exact this

/-- Linearity of the rule. -/
theorem kronrod7_sum {ι : Type} (s : Finset ι) (c : ι → E) (h : ℝ) (g1 g2 g3 g4 g5 g6 g7 : ι → ℝ) :
    kronrod7 h (∑ i ∈ s, g1 i • c i) (∑ i ∈ s, g2 i • c i) (∑ i ∈ s, g3 i • c i) (∑ i ∈ s, g4 i • c i)
      (∑ i ∈ s, g5 i • c i) (∑ i ∈ s, g6 i • c i) (∑ i ∈ s, g7 i • c i) =
      ∑ i ∈ s, (kronrod7 h (g1 i) (g2 i) (g3 i) (g4 i) (g5 i) (g6 i) (g7 i)) • c i := by
  simp only [kronrod7, ← Finset.sum_add_distrib, Finset.smul_sum]
  refine Finset.sum_congr rfl fun i _ => ?_
  simp only [smul_eq_mul]
  module

/-- The 7-point rule gives increments of `F`. -/
def Exact (f F : ℝ → E) : Prop := ∀ a b, kronrod7 (1 / 2 * (b - a)) (f a)
  (f (1 / 2 * (a + b) - alpha * (1 / 2 * (b - a)))) (f (1 / 2 * (a + b) - beta * (1 / 2 * (b - a))))
  (f (1 / 2 * (a + b))) (f (1 / 2 * (a + b) + beta * (1 / 2 * (b - a))))
  (f (1 / 2 * (a + b) + alpha * (1 / 2 * (b - a)))) (f b) = F b - F a

theorem exact_poly (n : Nat) (hn : n ≤ 9) (c : Nat → E) :
    Exact (fun x => ∑ k ∈ Finset.range (n + 1), x ^ k • c k)
      (fun x => ∑ k ∈ Finset.range (n + 1), (x ^ (k + 1) / (k + 1)) • c k) := by
  intro a b
  dsimp only
  rw [kronrod7_sum, ← Finset.sum_sub_distrib]
  refine Finset.sum_congr rfl fun k hk => ?_
  have hk9 : k ≤ 9 := by have := Finset.mem_range.mp hk; omega
  have h := kronrod7_pow k hk9 (1 / 2 * (a + b)) (1 / 2 * (b - a))
  have e1 : 1 / 2 * (a + b) - 1 / 2 * (b - a) = a := by ring
  have e2 : 1 / 2 * (a + b) + 1 / 2 * (b - a) = b := by ring
  rw [e1, e2] at h
  rw [h, ← sub_smul]
  congr 1
  ring

/-- What the recursion returns, for an integrand on which the rule is exact. -/
theorem refine_exact {f F : ℝ → E} (hF : Exact f F) (tolRel : ℝ) (is : E) : ∀ (n : Nat) (a b : ℝ) (v : E),
    refine f tolRel is n a b (f a) (f b) = some v → v = F b - F a := by
  intro n
  induction n with
  | zero => intro a b v h; simp [refine] at h
  | succ n ih =>
    intro a b v h
    simp only [refine] at h
    split_ifs at h with hc
    · rw [Option.some.injEq] at h
      rw [← h, hF a b]
    · simp only [Option.bind_eq_bind, Option.bind_eq_some_iff, pure, Option.some.injEq] at h
      obtain ⟨s1, h1, s2, h2, s3, h3, s4, h4, s5, h5, s6, h6, rfl⟩ := h
      rw [ih _ _ _ h1, ih _ _ _ h2, ih _ _ _ h3, ih _ _ _ h4, ih _ _ _ h5, ih _ _ _ h6]
      abel

theorem integrate_exact {f F : ℝ → E} (hF : Exact f F) (tol : ℝ) (n : Nat) (a b : ℝ) (v : E)
    (h : integrate tol f n a b = some v) :
    (v = 0 ∧ (‖estimate13 f a b‖ < 1 / 10 ^ 20 ∨ b ≤ a)) ∨ v = F b - F a := by
  have em : 1 / 2 * (b + a) = 1 / 2 * (a + b) := by ring
  simp only [integrate] at h
  split_ifs at h with h1 h2
  · exact Or.inl ⟨(Option.some.inj h).symm, h1⟩
  · right
    rw [Option.some.injEq] at h
    rw [← h, ← hF a b, em]
    simp only [neg_mul, ← sub_eq_add_neg, zero_mul, add_zero]
  · right
    simp only [Option.bind_eq_bind, Option.bind_eq_some_iff, pure, Option.some.injEq] at h
    obtain ⟨s1, h1, s2, h2, s3, h3, s4, h4, s5, h5, s6, h6, rfl⟩ := h
    rw [refine_exact hF _ _ _ _ _ _ h1, refine_exact hF _ _ _ _ _ _ h2, refine_exact hF _ _ _ _ _ _ h3,
      refine_exact hF _ _ _ _ _ _ h4, refine_exact hF _ _ _ _ _ _ h5, refine_exact hF _ _ _ _ _ _ h6]
    abel

/-! Bounds. -/

theorem lobatto4_le {h M : ℝ} {f1 f2 f3 f4 : E} (hh : 0 ≤ h) (b1 : ‖f1‖ ≤ M) (b2 : ‖f2‖ ≤ M) (b3 : ‖f3‖ ≤ M)
    (b4 : ‖f4‖ ≤ M) : ‖lobatto4 h f1 f2 f3 f4‖ ≤ 2 * h * M := by
  have h1 : ‖f1 + f4 + (5 : ℝ) • (f2 + f3)‖ ≤ 12 * M := by
    calc ‖f1 + f4 + (5 : ℝ) • (f2 + f3)‖ ≤ ‖f1 + f4‖ + ‖(5 : ℝ) • (f2 + f3)‖ := norm_add_le _ _
      _ ≤ (‖f1‖ + ‖f4‖) + 5 * (‖f2‖ + ‖f3‖) := by
        rw [norm_smul]
        have := norm_add_le f1 f4
        have := norm_add_le f2 f3
        norm_num
        linarith
      _ ≤ 12 * M := by linarith
  rw [lobatto4, norm_smul, Real.norm_of_nonneg (by positivity)]
  calc h / 6 * _ ≤ h / 6 * (12 * M) := by gcongr
    _ = _ := by ring

theorem kronrod7_le {h M : ℝ} {f1 f2 f3 f4 f5 f6 f7 : E} (hh : 0 ≤ h) (b1 : ‖f1‖ ≤ M) (b2 : ‖f2‖ ≤ M)
    (b3 : ‖f3‖ ≤ M) (b4 : ‖f4‖ ≤ M) (b5 : ‖f5‖ ≤ M) (b6 : ‖f6‖ ≤ M) (b7 : ‖f7‖ ≤ M) :
    ‖kronrod7 h f1 f2 f3 f4 f5 f6 f7‖ ≤ 2 * h * M := by
  have sm : ∀ (r : ℝ) (x : E), 0 ≤ r → ‖r • x‖ = r * ‖x‖ := fun r x hr => by
    rw [norm_smul, Real.norm_of_nonneg hr]
  have h1 : ‖(77 : ℝ) • (f1 + f7) + (432 : ℝ) • (f2 + f6) + (625 : ℝ) • (f3 + f5) + (672 : ℝ) • f4‖ ≤
      2940 * M := by
    have a1 := norm_add_le ((77 : ℝ) • (f1 + f7) + (432 : ℝ) • (f2 + f6) + (625 : ℝ) • (f3 + f5)) ((672 : ℝ) • f4)
    have a2 := norm_add_le ((77 : ℝ) • (f1 + f7) + (432 : ℝ) • (f2 + f6)) ((625 : ℝ) • (f3 + f5))
    have a3 := norm_add_le ((77 : ℝ) • (f1 + f7)) ((432 : ℝ) • (f2 + f6))
    have a4 := norm_add_le f1 f7
    have a5 := norm_add_le f2 f6
    have a6 := norm_add_le f3 f5
    have c1 := sm 77 (f1 + f7) (by norm_num)
    have c2 := sm 432 (f2 + f6) (by norm_num)
    have c3 := sm 625 (f3 + f5) (by norm_num)
    have c4 := sm 672 f4 (by norm_num)
    linarith
  rw [kronrod7, norm_smul, Real.norm_of_nonneg (by positivity)]
  calc h / 1470 * _ ≤ h / 1470 * (2940 * M) := by gcongr
    _ = _ := by ring

/-- The inner nodes are in the interval, in order, and no gap is larger than a quarter of the interval. -/
theorem nodes_order {a b : ℝ} (hab : a ≤ b) :
    let m := 1 / 2 * (a + b)
    let h := 1 / 2 * (b - a)
    a ≤ m - alpha * h ∧ m - alpha * h ≤ m - beta * h ∧ m - beta * h ≤ m ∧ m ≤ m + beta * h ∧
      m + beta * h ≤ m + alpha * h ∧ m + alpha * h ≤ b ∧
      4 * ((m - alpha * h) - a) ≤ b - a ∧ 4 * ((m - beta * h) - (m - alpha * h)) ≤ b - a ∧
      4 * (m - (m - beta * h)) ≤ b - a ∧ 4 * ((m + beta * h) - m) ≤ b - a ∧
      4 * ((m + alpha * h) - (m + beta * h)) ≤ b - a ∧ 4 * (b - (m + alpha * h)) ≤ b - a := by
  intro m h
  have ha1 := alpha_lt
  have ha2 := lt_alpha
  have hb1 := beta_lt
  have hb2 := lt_beta
  have hh : 0 ≤ h := by simp only [h]; linarith
  have em : m = a + h := by simp only [m, h]; ring
  have eb : b = a + 2 * h := by simp only [h]; ring
  have k1 : alpha * h ≤ 82 / 100 * h := mul_le_mul_of_nonneg_right ha1.le hh
  have k2 : 81 / 100 * h ≤ alpha * h := mul_le_mul_of_nonneg_right ha2.le hh
  have k3 : beta * h ≤ 45 / 100 * h := mul_le_mul_of_nonneg_right hb1.le hh
  have k4 : 44 / 100 * h ≤ beta * h := mul_le_mul_of_nonneg_right hb2.le hh
  refine ⟨?_, ?_, ?_, ?_, ?_, ?_, ?_, ?_, ?_, ?_, ?_, ?_⟩ <;> linarith

/-- The recursion ends for bounded integrands. -/
theorem refine_terminates {f : ℝ → E} {A B M : ℝ} (hM : ∀ x, A ≤ x → x ≤ B → ‖f x‖ ≤ M) (tolRel : ℝ) (is : E) :
    ∀ (n : Nat) (a b : ℝ), A ≤ a → a ≤ b → b ≤ B → 2 * (b - a) * M < tolAbs * 4 ^ n →
      ∃ v, refine f tolRel is (n + 1) a b (f a) (f b) = some v := by
  intro n
  induction n with
  | zero =>
    intro a b hA hab hB hw
    obtain ⟨o1, o2, o3, o4, o5, o6, -⟩ := nodes_order hab
    have hh : 0 ≤ 1 / 2 * (b - a) := by linarith
    rw [refine]
    rw [if_pos]
    · exact ⟨_, rfl⟩
    · left
      refine lt_of_lt_of_le ?_ (le_max_left _ _)
      refine lt_of_le_of_lt (norm_sub_le _ _) ?_
      have k1 := kronrod7_le (M := M) hh (hM a hA (by linarith)) (hM _ (by linarith) (by linarith : 1 / 2 * (a + b) - alpha * (1 / 2 * (b - a)) ≤ B))
        (hM _ (by linarith) (by linarith : 1 / 2 * (a + b) - beta * (1 / 2 * (b - a)) ≤ B))
        (hM _ (by linarith) (by linarith : 1 / 2 * (a + b) ≤ B))
        (hM _ (by linarith) (by linarith : 1 / 2 * (a + b) + beta * (1 / 2 * (b - a)) ≤ B))
        (hM _ (by linarith) (by linarith : 1 / 2 * (a + b) + alpha * (1 / 2 * (b - a)) ≤ B)) (hM b (by linarith) hB)
      have k2 := lobatto4_le (M := M) hh (hM a hA (by linarith))
        (hM _ (by linarith) (by linarith : 1 / 2 * (a + b) - beta * (1 / 2 * (b - a)) ≤ B))
        (hM _ (by linarith) (by linarith : 1 / 2 * (a + b) + beta * (1 / 2 * (b - a)) ≤ B)) (hM b (by linarith) hB)
      simp only [pow_zero, mul_one] at hw
      linarith
  | succ n ih =>
    intro a b hA hab hB hw
    obtain ⟨o1, o2, o3, o4, o5, o6, w1, w2, w3, w4, w5, w6⟩ := nodes_order hab
    have hM0 : 0 ≤ M := le_trans (norm_nonneg _) (hM a hA (by linarith))
    have small : ∀ c d : ℝ, 4 * (d - c) ≤ b - a → 2 * (d - c) * M < tolAbs * 4 ^ n := by
      intro c d hcd
      have e : tolAbs * 4 ^ (n + 1) = 4 * (tolAbs * 4 ^ n) := by ring
      rw [e] at hw
      have := mul_le_mul_of_nonneg_right hcd hM0
      linarith
    rw [refine]
    split_ifs
    · exact ⟨_, rfl⟩
    · obtain ⟨v1, h1⟩ := ih _ _ hA o1 (by linarith) (small _ _ w1)
      obtain ⟨v2, h2⟩ := ih _ _ (by linarith) o2 (by linarith) (small _ _ w2)
      obtain ⟨v3, h3⟩ := ih _ _ (by linarith) o3 (by linarith) (small _ _ w3)
      obtain ⟨v4, h4⟩ := ih _ _ (by linarith) o4 (by linarith) (small _ _ w4)
      obtain ⟨v5, h5⟩ := ih _ _ (by linarith) o5 (by linarith) (small _ _ w5)
      obtain ⟨v6, h6⟩ := ih _ _ (by linarith) o6 hB (small _ _ w6)
      rw [h1, h2, h3, h4, h5, h6]
      exact ⟨_, rfl⟩

/-- More levels do not change the result. -/
theorem refine_mono {f : ℝ → E} {tolRel : ℝ} {is : E} : ∀ (n : Nat) (a b : ℝ) (fa fb v : E),
    refine f tolRel is n a b fa fb = some v → ∀ k, n ≤ k → refine f tolRel is k a b fa fb = some v := by
  intro n
  induction n with
  | zero => intro a b fa fb v h; simp [refine] at h
  | succ n ih =>
    intro a b fa fb v h k hk
    obtain ⟨k, rfl⟩ : ∃ j, k = j + 1 := ⟨k - 1, by omega⟩
    have hk' : n ≤ k := by omega
    rw [refine] at h ⊢
    split_ifs at h ⊢
    · exact h
    · simp only [Option.bind_eq_bind, Option.bind_eq_some_iff, pure, Option.some.injEq] at h
      obtain ⟨s1, h1, s2, h2, s3, h3, s4, h4, s5, h5, s6, h6, rfl⟩ := h
      rw [ih _ _ _ _ _ h1 k hk', ih _ _ _ _ _ h2 k hk', ih _ _ _ _ _ h3 k hk', ih _ _ _ _ _ h4 k hk',
        ih _ _ _ _ _ h5 k hk', ih _ _ _ _ _ h6 k hk']
      rfl

theorem integrate_mono {f : ℝ → E} {tol : ℝ} {n : Nat} {a b : ℝ} {v : E} (h : integrate tol f n a b = some v)
    (k : Nat) (hk : n ≤ k) : integrate tol f k a b = some v := by
  rw [integrate] at h ⊢
  split_ifs at h ⊢
  · exact h
  · exact h
  · simp only [Option.bind_eq_bind, Option.bind_eq_some_iff, pure, Option.some.injEq] at h
    obtain ⟨s1, h1, s2, h2, s3, h3, s4, h4, s5, h5, s6, h6, rfl⟩ := h
    rw [refine_mono _ _ _ _ _ _ h1 k hk, refine_mono _ _ _ _ _ _ h2 k hk, refine_mono _ _ _ _ _ _ h3 k hk,
      refine_mono _ _ _ _ _ _ h4 k hk, refine_mono _ _ _ _ _ _ h5 k hk, refine_mono _ _ _ _ _ _ h6 k hk]
    rfl

end Verif.Quad
