import Verif.Quad.SpecTol
import Verif.Quad.Lemmas
import Mathlib.Analysis.SpecialFunctions.Integrals.Basic
import Mathlib.Tactic.IntervalCases

/-
C111: the error test of the adaptive integration and the estimate of the whole integral.
-/
namespace Verif.Quad

section
variable {E : Type} [NormedAddCommGroup E] [NormedSpace ℝ E]

theorem point_eq (a b x : ℝ) : point a b x = 1 / 2 * (a + b) + x * (1 / 2 * (b - a)) := by unfold point; ring

theorem four_eq (f : ℝ → E) (a b : ℝ) : lobatto4 (1 / 2 * (b - a)) (f a) (f (1 / 2 * (a + b) - beta * (1 / 2 * (b - a))))
    (f (1 / 2 * (a + b) + beta * (1 / 2 * (b - a)))) (f b) = four f a b := by
  unfold lobatto4 four
  rw [point_eq, point_eq]
  have e : (1 : ℝ) / 2 * (a + b) + -(1 / √5) * (1 / 2 * (b - a)) = 1 / 2 * (a + b) - beta * (1 / 2 * (b - a)) := by
    unfold beta; ring
  rw [e, show 1 / 2 * (b - a) / 6 = (b - a) / 12 by ring]
  rfl

theorem seven_eq (f : ℝ → E) (a b : ℝ) : kronrod7 (1 / 2 * (b - a)) (f a)
    (f (1 / 2 * (a + b) - alpha * (1 / 2 * (b - a)))) (f (1 / 2 * (a + b) - beta * (1 / 2 * (b - a))))
    (f (1 / 2 * (a + b))) (f (1 / 2 * (a + b) + beta * (1 / 2 * (b - a))))
    (f (1 / 2 * (a + b) + alpha * (1 / 2 * (b - a)))) (f b) = seven f a b := by
  unfold kronrod7 seven
  rw [point_eq, point_eq, point_eq, point_eq, point_eq]
  have e : (1 : ℝ) / 2 * (a + b) + -(1 / √5) * (1 / 2 * (b - a)) = 1 / 2 * (a + b) - beta * (1 / 2 * (b - a)) := by
    unfold beta; ring
  have e' : (1 : ℝ) / 2 * (a + b) + -√(2 / 3) * (1 / 2 * (b - a)) = 1 / 2 * (a + b) - alpha * (1 / 2 * (b - a)) := by
    unfold alpha; ring
  have e'' : (1 : ℝ) / 2 * (a + b) + 0 * (1 / 2 * (b - a)) = 1 / 2 * (a + b) := by ring
  rw [e, e', e'', show 1 / 2 * (b - a) / 1470 = (b - a) / 2940 by ring]
  rfl

theorem nodes_strict {a b : ℝ} (hab : a < b) :
    let m := 1 / 2 * (a + b)
    let h := 1 / 2 * (b - a)
    a < m - alpha * h ∧ m - alpha * h < m - beta * h ∧ m - beta * h < m ∧ m < m + beta * h ∧
      m + beta * h < m + alpha * h ∧ m + alpha * h < b := by
  intro m h
  have h0 : 0 < h := by simp only [h]; linarith
  have a1 := alpha_lt; have a2 := lt_alpha; have b1 := beta_lt; have b2 := lt_beta
  have ma : m = a + h := by simp only [m, h]; ring
  have mb : m = b - h := by simp only [m, h]; ring
  have p1 : alpha * h < h := by nlinarith
  have p2 : beta * h < alpha * h := by nlinarith
  have p3 : 0 < beta * h := by nlinarith
  refine ⟨by linarith, by linarith, by linarith, by linarith, by linarith, by linarith⟩

theorem refine_pieces {f : ℝ → E} (rel : ℝ) (is : E) : ∀ (n : Nat) (a b : ℝ) (v : E), a < b →
    refine f rel is n a b (f a) (f b) = some v → Pieces f (Test f rel is) a b v := by
  intro n
  induction n with
  | zero => intro a b v _ h; simp [refine] at h
  | succ n ih =>
    intro a b v hab h
    obtain ⟨o1, o2, o3, o4, o5, o6⟩ := nodes_strict hab
    simp only [refine] at h
    rw [four_eq, seven_eq] at h
    split_ifs at h with c
    · rcases c with c | c | c
      · have e := Option.some.inj h
        rw [← e]
        exact Pieces.one hab (by simpa [Test, tolAbs] using c)
      · exact absurd c (not_lt.mpr o1.le)
      · exact absurd c (not_lt.mpr o6.le)
    · simp only [Option.bind_eq_bind, Option.bind_eq_some_iff, Option.pure_def] at h
      obtain ⟨s1, h1, s2, h2, s3, h3, s4, h4, s5, h5, s6, h6, e⟩ := h
      rw [← Option.some.inj e]
      exact ((((((ih _ _ _ o1 h1).join (ih _ _ _ o2 h2)).join (ih _ _ _ o3 h3)).join (ih _ _ _ o4 h4)).join
        (ih _ _ _ o5 h5)).join (ih _ _ _ o6 h6))

theorem clampTol_eq (tol : ℝ) : clampTol tol = max tol (10 / 2 ^ 52) := by
  unfold clampTol tolAbs
  have : (10 : ℝ) * (1 / 2 ^ 52) = 10 / 2 ^ 52 := by ring
  rw [this]
  split_ifs with c
  · rw [max_eq_right c.le]
  · rw [max_eq_left (not_lt.mp c)]

theorem scaledTol_spec (f : ℝ → E) (tol : ℝ) (is : E) (a b : ℝ) :
    Tolerance f tol is a b (scaledTol (clampTol tol) (four f a b) (seven f a b) is) := by
  rw [clampTol_eq]
  unfold scaledTol
  have n1 := norm_nonneg (four f a b - is)
  have n2 := norm_nonneg (seven f a b - is)
  constructor
  · intro h0 h1
    have : ‖four f a b - is‖ ≠ 0 := by linarith
    simp only [if_pos this]
    rw [if_pos ⟨div_pos h0 (by linarith), (div_lt_one (by linarith)).mpr h1⟩]
    rw [div_div_eq_mul_div, mul_div_assoc]
  · intro h
    simp only
    by_cases c : ‖four f a b - is‖ = 0
    · simp [c]
    · have pos : 0 < ‖four f a b - is‖ := lt_of_le_of_ne n1 (Ne.symm c)
      simp only [if_pos c]
      rw [if_neg]
      rintro ⟨x, y⟩
      rcases h with h | h
      · rw [h, zero_div] at x; exact lt_irrefl _ x
      · rw [div_lt_one pos] at y; linarith

/-- C111: what the integrator returns on a proper interval, unless the estimate of the whole integral is below `10⁻²⁰`:
either the seven-point rule for the whole interval, which then passes the error test and agrees with the estimate of the
whole integral to the same accuracy, or is used because the interval is shorter than the machine precision; or a sum of
seven-point rules over adjoining intervals, each of which passes the error test. The tolerance in the test is never
smaller than the requested one, and larger only by the ratio by which the seven-point rule is better than the four-point
rule. -/
theorem c111_accepted (tol : ℝ) (f : ℝ → E) (n : Nat) (a b : ℝ) (hab : a < b) (he : 1 / 10 ^ 20 ≤ ‖estimate13 f a b‖) (v : E)
    (h : integrate tol f n a b = some v) : ∃ rel, Tolerance f tol (estimate13 f a b) a b rel ∧
      ((v = seven f a b ∧ (b - a < 1 / 2 ^ 52 ∨ Test f rel (estimate13 f a b) a b ∧
          ‖seven f a b - estimate13 f a b‖ < max (1 / 2 ^ 52) (rel * ‖estimate13 f a b‖))) ∨
        Pieces f (Test f rel (estimate13 f a b)) a b v) := by
  refine ⟨_, scaledTol_spec f tol _ a b, ?_⟩
  have em : 1 / 2 * (b + a) = 1 / 2 * (a + b) := by ring
  rw [integrate] at h
  simp only [neg_mul, ← sub_eq_add_neg, zero_mul, add_zero, em] at h
  rw [four_eq, seven_eq] at h
  rw [if_neg (by push Not; exact ⟨he, hab⟩)] at h
  split_ifs at h with c
  · left
    refine ⟨(Option.some.inj h).symm, ?_⟩
    rcases c with c | c
    · right
      exact ⟨by simpa [Test, tolAbs] using c.1, by simpa [tolAbs] using c.2⟩
    · left; simpa [tolAbs] using c
  · right
    obtain ⟨o1, o2, o3, o4, o5, o6⟩ := nodes_strict hab
    simp only [Option.bind_eq_bind, Option.bind_eq_some_iff, Option.pure_def] at h
    obtain ⟨s1, h1, s2, h2, s3, h3, s4, h4, s5, h5, s6, h6, e⟩ := h
    rw [← Option.some.inj e]
    exact ((((((refine_pieces _ _ _ _ _ _ o1 h1).join (refine_pieces _ _ _ _ _ _ o2 h2)).join
      (refine_pieces _ _ _ _ _ _ o3 h3)).join (refine_pieces _ _ _ _ _ _ o4 h4)).join
        (refine_pieces _ _ _ _ _ _ o5 h5)).join (refine_pieces _ _ _ _ _ _ o6 h6))

/-- C111: an integrand that passes the test on the whole interval, with an estimate that agrees, is not subdivided. -/
theorem c111_not_divided (tol : ℝ) (f : ℝ → E) (n : Nat) (a b : ℝ) (hab : a < b) (he : 1 / 10 ^ 20 ≤ ‖estimate13 f a b‖)
    (h1 : ‖seven f a b - four f a b‖ < max (1 / 2 ^ 52) (max tol (10 / 2 ^ 52) * ‖estimate13 f a b‖))
    (h2 : ‖seven f a b - estimate13 f a b‖ < max (1 / 2 ^ 52) (max tol (10 / 2 ^ 52) * ‖estimate13 f a b‖)) :
    integrate tol f n a b = some (seven f a b) := by
  have em : 1 / 2 * (b + a) = 1 / 2 * (a + b) := by ring
  have ge : max tol (10 / 2 ^ 52) ≤ scaledTol (clampTol tol) (four f a b) (seven f a b) (estimate13 f a b) := by
    obtain ⟨p, q⟩ := scaledTol_spec f tol (estimate13 f a b) a b
    have m0 : 0 ≤ max tol (10 / 2 ^ 52) := le_trans (by norm_num) (le_max_right _ _)
    by_cases c : ‖seven f a b - estimate13 f a b‖ = 0 ∨
        ‖four f a b - estimate13 f a b‖ ≤ ‖seven f a b - estimate13 f a b‖
    · rw [q c]
    · push Not at c
      have pos := lt_of_le_of_ne (norm_nonneg _) (Ne.symm c.1)
      rw [p pos c.2]
      exact le_mul_of_one_le_right m0 ((one_le_div pos).mpr c.2.le)
  have le : max (1 / 2 ^ 52) (max tol (10 / 2 ^ 52) * ‖estimate13 f a b‖) ≤
      max tolAbs (scaledTol (clampTol tol) (four f a b) (seven f a b) (estimate13 f a b) * ‖estimate13 f a b‖) :=
    max_le_max le_rfl (mul_le_mul_of_nonneg_right ge (norm_nonneg _))
  rw [integrate]
  simp only [neg_mul, ← sub_eq_add_neg, zero_mul, add_zero, em]
  rw [four_eq, seven_eq, if_neg (by push Not; exact ⟨he, hab⟩), if_pos]
  exact Or.inl ⟨lt_of_lt_of_le h1 le, lt_of_lt_of_le h2 le⟩

end

theorem even_pow {x : ℝ} {r : ℝ} (h : x ^ 2 = r) (j : Nat) : x ^ (2 * j) = r ^ j := by rw [pow_mul, h]

/-- The thirteen-point rule on the reference interval, for a power of the variable. -/
theorem estimate_pow (k : Nat) (hk : k ≤ 19) :
    |estimate13 (fun x : ℝ => x ^ k) (-1) 1 - ∫ x in (-1 : ℝ)..1, x ^ k| ≤ 1 / 10 ^ 15 := by
  have i : ∫ x in (-1 : ℝ)..1, x ^ k = (1 - (-1) ^ (k + 1)) / (k + 1) := by rw [integral_pow]; simp
  have e : ∀ y : ℝ, (1 : ℝ) / 2 * (1 + -1) + y * (1 / 2 * (1 - -1)) = y := fun y => by ring
  rw [i]
  unfold estimate13 kronrod13
  simp only [e, smul_eq_mul]
  rcases Nat.even_or_odd k with ⟨j, rfl⟩ | ⟨j, rfl⟩
  · have ev : ∀ y : ℝ, (-y) ^ (j + j) = y ^ (j + j) := fun y => by rw [← two_mul, pow_mul, pow_mul, neg_sq]
    have al : alpha ^ (j + j) = (2 / 3) ^ j := by rw [← two_mul, even_pow alpha_sq]
    have be : beta ^ (j + j) = (1 / 5) ^ j := by rw [← two_mul, even_pow beta_sq]
    simp only [ev, al, be]
    unfold x1 x2 x3
    have : j ≤ 9 := by omega
    interval_cases j <;> norm_num [abs_le]
  · have ev : ∀ y : ℝ, (-y) ^ (2 * j + 1) = -y ^ (2 * j + 1) := fun y => Odd.neg_pow ⟨j, rfl⟩ y
    simp only [ev]
    have h2 : (-1 : ℝ) ^ (2 * j + 1 + 1) = 1 := by
      rw [show 2 * j + 1 + 1 = 2 * (j + 1) by ring, pow_mul]; simp
    simp [h2]

/-- C111: the estimate of the whole integral, against which the error test is made, is the integral for every polynomial of
degree at most nineteen, up to the rounding of the tabulated weights and points. -/
theorem c111_estimate (c : Fin 20 → ℝ) : |estimate13 (fun x : ℝ => ∑ k : Fin 20, c k * x ^ (k : Nat)) (-1) 1 -
    ∫ x in (-1 : ℝ)..1, ∑ k : Fin 20, c k * x ^ (k : Nat)| ≤ (∑ k, |c k|) / 10 ^ 15 := by
  have l : estimate13 (fun x : ℝ => ∑ k : Fin 20, c k * x ^ (k : Nat)) (-1) 1 =
      ∑ k : Fin 20, c k * estimate13 (fun x : ℝ => x ^ (k : Nat)) (-1) 1 := by
    unfold estimate13 kronrod13
    simp only [smul_eq_mul, ← Finset.sum_add_distrib, Finset.mul_sum]
    exact Finset.sum_congr rfl fun k _ => by ring
  rw [l, intervalIntegral.integral_finset_sum (fun k _ => by
    exact (Continuous.intervalIntegrable (by fun_prop) _ _)), ← Finset.sum_sub_distrib]
  refine (Finset.abs_sum_le_sum_abs _ _).trans ?_
  rw [Finset.sum_div]
  refine Finset.sum_le_sum fun k _ => ?_
  rw [intervalIntegral.integral_const_mul, ← mul_sub, abs_mul, div_eq_mul_one_div]
  exact mul_le_mul_of_nonneg_left (estimate_pow k (by omega)) (abs_nonneg _)

/-- C111: on any interval the estimate is that of the integrand transported to the reference interval. -/
theorem c111_transport {E : Type} [NormedAddCommGroup E] [NormedSpace ℝ E] (f : ℝ → E) (a b : ℝ) :
    estimate13 f a b = ((b - a) / 2) • estimate13 (fun x => f (point a b x)) (-1) 1 := by
  have e : ∀ y : ℝ, (1 : ℝ) / 2 * (1 + -1) + y * (1 / 2 * (1 - -1)) = y := fun y => by ring
  have p : ∀ y : ℝ, 1 / 2 * (b + a) + y * (1 / 2 * (b - a)) = point a b y := fun y => by unfold point; ring
  have p0 : point a b (-1) = a := by unfold point; ring
  have p1 : point a b 1 = b := by unfold point; ring
  unfold estimate13 kronrod13
  simp only [e, p, p0, p1]
  rw [show (1 : ℝ) / 2 * (1 - -1) = 1 by norm_num, one_smul, show 1 / 2 * (b - a) = (b - a) / 2 by ring]

/-- The hypotheses are met: the constant one on the unit interval is integrated without subdivision. -/
example (tol : ℝ) (n : Nat) : integrate tol (fun _ : ℝ => (1 : ℝ)) n 0 1 = some 1 := by
  have s : seven (fun _ : ℝ => (1 : ℝ)) 0 1 = 1 := by simp [seven]; norm_num
  have f : four (fun _ : ℝ => (1 : ℝ)) 0 1 = 1 := by simp [four]; norm_num
  have e : estimate13 (fun _ : ℝ => (1 : ℝ)) 0 1 = 1 + 2 / 10 ^ 16 := by
    simp only [estimate13, kronrod13, smul_eq_mul]; norm_num
  have pos : (0 : ℝ) < 1 / 2 ^ 52 := by norm_num
  have m : (10 : ℝ) / 2 ^ 52 ≤ max tol (10 / 2 ^ 52) := le_max_right _ _
  rw [c111_not_divided tol _ n 0 1 one_pos, s]
  · rw [e]; rw [Real.norm_of_nonneg (by norm_num)]; norm_num
  · rw [s, f, sub_self, norm_zero]; exact lt_of_lt_of_le pos (le_max_left _ _)
  · rw [s, e]
    refine lt_of_lt_of_le ?_ (le_max_left _ _)
    rw [Real.norm_eq_abs]
    norm_num [abs_lt]

end Verif.Quad
