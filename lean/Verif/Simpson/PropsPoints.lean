import Verif.Simpson.Props
import Mathlib.Algebra.Order.Round
import Mathlib.Tactic.Linarith
import Mathlib.Tactic.FieldSimp

/-! C88: how the points are shared out among the parts of the interval. -/
namespace Verif.Simpson

section
variable {E : Type} [NormedAddCommGroup E] [NormedSpace ℝ E]

/-- The odd integer nearest to `x` (the larger one if there are two). -/
def OddNear (n : ℤ) (x : ℝ) : Prop := n % 2 = 1 ∧ x - 1 < n ∧ n ≤ x + 1

/-- There is exactly one. -/
theorem OddNear.unique {n m : ℤ} {x : ℝ} (h : OddNear n x) (h' : OddNear m x) : n = m := by
  obtain ⟨a, b, c⟩ := h
  obtain ⟨a', b', c'⟩ := h'
  have h1 : (n : ℝ) < (m + 2 : ℤ) := by push_cast; linarith
  have h2 : (m : ℝ) < (n + 2 : ℤ) := by push_cast; linarith
  have h1' := Int.cast_lt.1 h1
  have h2' := Int.cast_lt.1 h2
  omega

theorem oddNear_of {k : ℤ} {x : ℝ} (h1 : (k : ℝ) ≤ x) (h2 : x < k + 1) : OddNear (makeOdd k) x := by
  refine ⟨makeOdd_odd k, ?_, ?_⟩ <;> unfold makeOdd <;> split_ifs <;> push_cast <;> linarith

theorem oddNear_toInt {x : ℝ} (h : 0 ≤ x) : OddNear (makeOdd (toInt x)) x := by
  rw [toInt, if_neg (not_lt.2 h)]
  exact oddNear_of (Int.floor_le x) (Int.lt_floor_add_one x)

theorem oddNear_tdiv {N k : ℤ} (hN : 0 ≤ N) (hk : 0 < k) : OddNear (makeOdd (N.tdiv k)) ((N : ℝ) / k) := by
  rw [Int.tdiv_eq_ediv_of_nonneg hN]
  have k0 : (0 : ℝ) < k := by exact_mod_cast hk
  refine oddNear_of ?_ ?_
  · rw [le_div_iff₀ k0]
    exact_mod_cast Int.ediv_mul_le N hk.ne'
  · rw [div_lt_iff₀ k0]
    exact_mod_cast Int.lt_ediv_add_one_mul_self N hk

variable {a b w w1 w2 : ℝ} {N : ℤ}

/-- C88 (points, one feature).  Around the feature a window of half-width 2 gets a fifth of the points; the parts of the interval
to the left and to the right of the feature get their share of the points according to their lengths. -/
theorem c88_feature_points (f : ℝ → E) (h1 : a ≤ w) (h2 : w ≤ b) (hab : a < b) (hN : 0 ≤ N) :
    ∃ nl nw nr : ℤ, OddNear nl (N * ((w - a) / (b - a))) ∧ OddNear nw (N / 5) ∧ OddNear nr (N * ((b - w) / (b - a))) ∧
      simpsonFeature f a b w N = .ok (simpsonSum f a (w - 2) nl + simpsonSum f (w - 2) (w + 2) nw + simpsonSum f (w + 2) b nr) := by
  have d : 0 < b - a := by linarith
  have n0 : (0 : ℝ) ≤ N := by exact_mod_cast hN
  refine ⟨makeOdd (toInt (N * (w - a) / (b - a))), makeOdd (N.tdiv 5), makeOdd (toInt (N * (b - w) / (b - a))), ?_, ?_, ?_, ?_⟩
  · rw [← mul_div_assoc]
    exact oddNear_toInt (div_nonneg (mul_nonneg n0 (by linarith)) d.le)
  · exact_mod_cast oddNear_tdiv hN (k := 5) (by norm_num)
  · rw [← mul_div_assoc]
    exact oddNear_toInt (div_nonneg (mul_nonneg n0 (by linarith)) d.le)
  · simp only [simpsonFeature, d.ne', if_false, mul_one, zero_add]

/-- The two features in order. -/
theorem simpsonTwo_comm (f : ℝ → E) (a b w1 w2 : ℝ) (N : ℤ) : simpsonTwo f a b w1 w2 N = simpsonTwo f a b w2 w1 N := by
  rcases lt_trichotomy w1 w2 with h | h | h
  · simp only [simpsonTwo, h, not_lt_of_gt h, if_true, if_false]
  · rw [h]
  · simp only [simpsonTwo, h, not_lt_of_gt h, if_true, if_false]

/-- C88 (points, two features).  If the upper feature is more than 5 below the upper limit, the parts of the interval below the
lower and above the upper feature get points according to their lengths. If the features are more than 50 apart, each of them
has a window of half-width 5 with a tenth of the points, and the part between them gets points according to its length;
otherwise one window encloses both and gets points in proportion to its width. The order of the features does not matter. -/
theorem c88_two_points (f : ℝ → E) (h1 : a ≤ w1) (h12 : w1 ≤ w2) (h2 : w2 + 5 < b) (hN : 0 ≤ N) :
    simpsonTwo f a b w2 w1 N = simpsonTwo f a b w1 w2 N ∧
    ∃ nl nw nr : ℤ, OddNear nl (N * ((w1 - a) / (b - a))) ∧ OddNear nw (N / 10) ∧ OddNear nr (N * ((b - w2) / (b - a))) ∧
      (50 < w2 - w1 → ∃ nc, OddNear nc (N * ((w2 - w1) / (b - a))) ∧
        simpsonTwo f a b w1 w2 N = .ok (simpsonSum f a (w1 - 5) nl + simpsonSum f (w1 - 5) (w1 + 5) nw +
          simpsonSum f (w1 + 5) (w2 - 5) nc + simpsonSum f (w2 - 5) (w2 + 5) nw + simpsonSum f (w2 + 5) b nr)) ∧
      (w2 - w1 ≤ 50 → ∃ nc, OddNear nc (nw * ((w2 - w1 + 10) / 10)) ∧
        simpsonTwo f a b w1 w2 N = .ok (simpsonSum f a (w1 - 5) nl + simpsonSum f (w1 - 5) (w2 + 5) nc + simpsonSum f (w2 + 5) b nr)) := by
  have d : 0 < b - a := by linarith
  have n0 : (0 : ℝ) ≤ N := by exact_mod_cast hN
  have e1 : (if w1 < w2 then w1 else w2) = w1 := by
    split_ifs with h
    · rfl
    · linarith
  have e2 : (if w1 < w2 then w2 else w1) = w2 := by
    split_ifs with h
    · rfl
    · linarith
  have far : b - w2 > 5 := by linarith
  have hw : OddNear (makeOdd (N.tdiv 10)) ((N : ℝ) / 10) := by exact_mod_cast oddNear_tdiv hN (k := 10) (by norm_num)
  refine ⟨simpsonTwo_comm f a b w2 w1 N, makeOdd (toInt (N * (w1 - a) / (b - a))), makeOdd (N.tdiv 10), makeOdd (toInt (N * (b - w2) / (b - a))), ?_, hw, ?_,
    fun h => ⟨makeOdd (toInt (N * (w2 - w1) / (b - a))), ?_, ?_⟩,
    fun h => ⟨makeOdd (toInt ((makeOdd (N.tdiv 10) : ℤ) * (w2 - w1 + 2 * 5) / (2 * 5))), ?_, ?_⟩⟩
  · rw [← mul_div_assoc]
    exact oddNear_toInt (div_nonneg (mul_nonneg n0 (by linarith)) d.le)
  · rw [← mul_div_assoc]
    exact oddNear_toInt (div_nonneg (mul_nonneg n0 (by linarith)) d.le)
  · rw [← mul_div_assoc]
    exact oddNear_toInt (div_nonneg (mul_nonneg n0 (by linarith)) d.le)
  · have h' : w2 - w1 > 10 * 5 := by linarith
    simp only [simpsonTwo, e1, e2, mul_one, far, d.ne', h', if_true, if_false, zero_add]
    congr 1
    abel
  · have p : (0 : ℝ) ≤ (makeOdd (N.tdiv 10) : ℤ) := by
      have : 0 ≤ N.tdiv 10 := Int.tdiv_nonneg hN (by norm_num)
      have : 0 ≤ makeOdd (N.tdiv 10) := by unfold makeOdd; split_ifs <;> omega
      exact_mod_cast this
    have := oddNear_toInt (x := (makeOdd (N.tdiv 10) : ℤ) * (w2 - w1 + 2 * 5) / (2 * 5)) (by
      refine div_nonneg (mul_nonneg p ?_) (by norm_num)
      linarith)
    convert this using 1
    ring
  · have h' : ¬ w2 - w1 > 10 * 5 := by linarith
    simp only [simpsonTwo, e1, e2, mul_one, far, d.ne', h', if_true, if_false, zero_add]
    congr 1
    abel

/-- C88 (points near the limit).  Otherwise the outermost windows, each with a tenth of the points, reach to the limits and the
part between them gets the full number. -/
theorem c88_two_edge (f : ℝ → E) (h12 : w1 ≤ w2) (h2 : b ≤ w2 + 5) (hN : 0 ≤ N) :
    ∃ nw : ℤ, OddNear nw (N / 10) ∧ simpsonTwo f a b w1 w2 N =
      .ok (simpsonSum f a (w1 + 5) nw + simpsonSum f (w1 + 5) (w2 - 5) N + simpsonSum f (w2 - 5) b nw) := by
  have e1 : (if w1 < w2 then w1 else w2) = w1 := by
    split_ifs with h
    · rfl
    · linarith
  have e2 : (if w1 < w2 then w2 else w1) = w2 := by
    split_ifs with h
    · rfl
    · linarith
  have near : ¬ b - w2 > 5 := by linarith
  refine ⟨makeOdd (N.tdiv 10), by exact_mod_cast oddNear_tdiv hN (k := 10) (by norm_num), ?_⟩
  simp only [simpsonTwo, e1, e2, mul_one, near, if_false, zero_add]

-- 1000 points on [-100, 100] with features at -40 and 30: 301, 351 and 351 points outside of the windows, 101 in each of them
example (f : ℝ → ℂ) : simpsonTwo f (-100) 100 (-40) 30 1000 = .ok (simpsonSum f (-100) (-45) 301 + simpsonSum f (-45) (-35) 101 +
    simpsonSum f (-35) 25 351 + simpsonSum f 25 35 101 + simpsonSum f 35 100 351) := by
  obtain ⟨-, nl, nw, nr, h1, h2, h3, h, -⟩ := c88_two_points (a := -100) (b := 100) (w1 := -40) (w2 := 30) (N := 1000) f (by norm_num) (by norm_num)
    (by norm_num) (by norm_num)
  obtain ⟨nc, h4, e⟩ := h (by norm_num)
  have near : ∀ {n m : ℤ} {x : ℝ}, OddNear n x → m % 2 = 1 → x - 1 < m → (m : ℝ) ≤ x + 1 → n = m := fun h a b c => h.unique ⟨a, b, c⟩
  rw [e, near h1 (m := 301) (by norm_num) (by norm_num) (by norm_num), near h2 (m := 101) (by norm_num) (by norm_num) (by norm_num),
    near h3 (m := 351) (by norm_num) (by norm_num) (by norm_num), near h4 (m := 351) (by norm_num) (by norm_num) (by norm_num)]
  norm_num

end

end Verif.Simpson
