import Verif.GridMap.Model
import Verif.GridMap.Spec

namespace Verif.GridMap

theorem sgn_pos {x : ℝ} (h : 0 < x) : sgn x = 1 := by simp [sgn, h.le, not_le.mpr h]
theorem sgn_neg {x : ℝ} (h : x < 0) : sgn x = -1 := by simp [sgn, h.le, not_le.mpr h]
@[simp] theorem sgn_zero : sgn 0 = 0 := by simp [sgn]
theorem sgn_odd (x : ℝ) : sgn (-x) = - sgn x := by
  rcases lt_trichotomy x 0 with h | h | h
  · rw [sgn_neg h, sgn_pos (by linarith)]; ring
  · subst h; simp
  · rw [sgn_pos h, sgn_neg (by linarith)]
theorem sgn_mul_self (x : ℝ) : sgn x * x = |x| := by
  rcases lt_trichotomy x 0 with h | h | h
  · rw [sgn_neg h, abs_of_neg h]; ring
  · subst h; simp
  · rw [sgn_pos h, abs_of_pos h]; ring
theorem sgn_mul_abs (x : ℝ) : sgn x * |x| = x := by
  rcases lt_trichotomy x 0 with h | h | h
  · rw [sgn_neg h, abs_of_neg h]; ring
  · subst h; simp
  · rw [sgn_pos h, abs_of_pos h]; ring
theorem sgn_sq {x : ℝ} (h : x ≠ 0) : sgn x * sgn x = 1 := by
  rcases lt_or_gt_of_ne h with h | h
  · rw [sgn_neg h]; ring
  · rw [sgn_pos h]; ring

/-- The remaining clauses follow from the range, one inversion identity and monotonicity of the inverse. -/
theorem changeOfVariable_of {toT ofT : ℝ → ℝ} (range : ∀ w, -1 < toT w ∧ toT w < 1)
    (back : ∀ w, ofT (toT w) = w) (mono : ∀ s t, -1 < s → s < t → t < 1 → ofT s < ofT t) :
    ChangeOfVariable toT ofT where
  range := range
  back := back
  ofT_strictMono := mono
  forth := by
    intro t h1 h2
    have r := range (ofT t)
    rcases lt_trichotomy (toT (ofT t)) t with h | h | h
    · have := mono _ _ r.1 h h2; rw [back] at this; exact absurd this (lt_irrefl _)
    · exact h
    · have := mono _ _ h1 h r.2; rw [back] at this; exact absurd this (lt_irrefl _)
  toT_strictMono := by
    intro a b hab
    by_contra h
    push Not at h
    rcases h.lt_or_eq with h | h
    · have := mono _ _ (range b).1 h (range a).2; rw [back, back] at this; linarith
    · have := congrArg ofT h; rw [back, back] at this; linarith

/-- A quotient `N/D` with `N` odd and increasing and `D` positive, even and decreasing on `[0,1)` is
strictly increasing on `(-1,1)`. -/
theorem ratio_mono {N D : ℝ → ℝ} (hodd : ∀ t, N (-t) = - N t) (heven : ∀ t, D (-t) = D t)
    (hN : ∀ s t, 0 ≤ s → s < t → t < 1 → N s < N t) (hD : ∀ s t, 0 ≤ s → s < t → t < 1 → D t ≤ D s)
    (hpos : ∀ t, 0 ≤ t → t < 1 → 0 < D t) :
    ∀ s t, -1 < s → s < t → t < 1 → N s / D s < N t / D t := by
  have h0 : N 0 = 0 := by have := hodd 0; rw [neg_zero] at this; linarith
  have base : ∀ s t, 0 ≤ s → s < t → t < 1 → N s / D s < N t / D t := by
    intro s t hs hst ht
    have p1 := hpos t (by linarith) ht
    have p2 := hpos s hs (by linarith)
    have n1 := hN s t hs hst ht
    have n0 : 0 ≤ N s := by
      rcases hs.eq_or_lt with e | h
      · rw [← e, h0]
      · have := hN 0 s le_rfl h (by linarith); linarith
    rw [div_lt_div_iff₀ p2 p1]
    have d := hD s t hs hst ht
    nlinarith
  intro s t h1 hst h2
  rcases le_or_gt 0 s with hs | hs
  · exact base s t hs hst h2
  · rcases le_or_gt t 0 with ht | ht
    · have := base (-t) (-s) (by linarith) (by linarith) (by linarith)
      rw [hodd, hodd, heven, heven, neg_div, neg_div] at this
      linarith
    · have a := base 0 (-s) le_rfl (by linarith) (by linarith)
      have b := base 0 t le_rfl ht h2
      rw [hodd, heven, neg_div, h0, zero_div] at a
      rw [h0, zero_div] at b
      linarith

theorem sqrt_denominator {s t : ℝ} (hs : 0 ≤ s) (hst : s < t) : √(1 - t * t) ≤ √(1 - s * s) :=
  Real.sqrt_le_sqrt (by nlinarith)

theorem sqrt_denominator_pos {t : ℝ} (h0 : 0 ≤ t) (h1 : t < 1) : 0 < √(1 - t * t) :=
  Real.sqrt_pos.mpr (by nlinarith)

theorem v1Inv_mono {W : ℝ} (hW : 0 < W) (c s t : ℝ) (h1 : -1 < s) (hst : s < t) (h2 : t < 1) :
    v1Inv W c s < v1Inv W c t := by
  have := ratio_mono (N := fun t => W * t) (D := fun t => √(1 - t * t)) (fun t => by ring)
    (fun t => by rw [neg_mul_neg]) (fun s t _ h _ => by nlinarith) (fun s t h0 h _ => sqrt_denominator h0 h)
    (fun t h0 h1 => sqrt_denominator_pos h0 h1) s t h1 hst h2
  unfold v1Inv; linarith

theorem v2Inv_mono {W : ℝ} (hW : 0 < W) (c s t : ℝ) (h1 : -1 < s) (hst : s < t) (h2 : t < 1) :
    v2Inv W c s < v2Inv W c t := by
  have := ratio_mono (N := fun t => W * t * |t|) (D := fun t => √(1 - t * t))
    (fun t => by rw [abs_neg]; ring)
    (fun t => by rw [neg_mul_neg])
    (fun s t h0 h _ => by
      rw [abs_of_nonneg h0, abs_of_pos (by linarith)]
      have : s * s < t * t := by nlinarith
      nlinarith [mul_lt_mul_of_pos_left this hW])
    (fun s t h0 h _ => sqrt_denominator h0 h)
    (fun t h0 h1 => sqrt_denominator_pos h0 h1) s t h1 hst h2
  unfold v2Inv; linarith

theorem v3Inv_mono {W : ℝ} (hW : 0 < W) (c s t : ℝ) (h1 : -1 < s) (hst : s < t) (h2 : t < 1) :
    v3Inv W c s < v3Inv W c t := by
  have := ratio_mono (N := fun t => W * t) (D := fun t => 1 - t * t) (fun t => by ring)
    (fun t => by ring) (fun s t _ h _ => by nlinarith) (fun s t h0 h _ => by nlinarith)
    (fun t h0 h1 => by nlinarith) s t h1 hst h2
  unfold v3Inv; linarith

theorem v4Inv_mono {W : ℝ} (hW : 0 < W) (c s t : ℝ) (h1 : -1 < s) (hst : s < t) (h2 : t < 1) :
    v4Inv W c s < v4Inv W c t := by
  have := ratio_mono (N := fun t => W * sgn t * (t * t)) (D := fun t => 1 - t * t)
    (fun t => by rw [sgn_odd]; ring)
    (fun t => by ring)
    (fun s t h0 h _ => by
      rw [mul_assoc, mul_assoc, ← mul_assoc (sgn s), ← mul_assoc (sgn t), sgn_mul_self, sgn_mul_self,
        abs_of_nonneg h0, abs_of_pos (by linarith)]
      have : s * s < t * t := by nlinarith
      exact mul_lt_mul_of_pos_left this hW)
    (fun s t h0 h _ => by nlinarith)
    (fun t h0 h1 => by nlinarith) s t h1 hst h2
  unfold v4Inv; linarith

theorem v1_spec {W : ℝ} (hW : 0 < W) (c w : ℝ) :
    (-1 < v1 W c w ∧ v1 W c w < 1) ∧ v1Inv W c (v1 W c w) = w := by
  unfold v1Inv v1
  set x := w - c with hx
  have hS : 0 < √(W * W + x * x) := Real.sqrt_pos.mpr (by nlinarith [mul_self_nonneg x])
  have hSS : √(W * W + x * x) * √(W * W + x * x) = W * W + x * x :=
    Real.mul_self_sqrt (by nlinarith [mul_self_nonneg x])
  set S := √(W * W + x * x)
  have habs : |x| < S := by
    apply abs_lt_of_sq_lt_sq _ hS.le
    nlinarith
  have hl := abs_lt.mp habs
  refine ⟨⟨by rw [lt_div_iff₀ hS]; linarith, by rw [div_lt_one hS]; linarith⟩, ?_⟩
  have h1 : 1 - x / S * (x / S) = (W / S) * (W / S) := by
    field_simp; nlinarith
  rw [h1, Real.sqrt_mul_self (by positivity)]
  field_simp
  rw [hx]; ring

theorem v2_spec {W : ℝ} (hW : 0 < W) (c w : ℝ) :
    (-1 < v2 W c w ∧ v2 W c w < 1) ∧ v2Inv W c (v2 W c w) = w := by
  unfold v2Inv v2
  set x := w - c with hx
  have hxx0 := mul_self_nonneg x
  have hrad : 0 ≤ x * x * (x * x) + 4 * (x * x) * W * W := by
    have := mul_nonneg hxx0 hxx0
    have := mul_nonneg (mul_nonneg hxx0 hW.le) hW.le
    nlinarith
  have hSS := Real.mul_self_sqrt hrad
  have hS0 := Real.sqrt_nonneg (x * x * (x * x) + 4 * (x * x) * W * W)
  set S := √(x * x * (x * x) + 4 * (x * x) * W * W)
  have hge : x * x ≤ S := by
    apply le_of_sq_le_sq _ hS0
    nlinarith [mul_self_nonneg x, mul_self_nonneg (x * W)]
  have hq0 : 0 ≤ (S - x * x) / 2 := by linarith
  have hqq := Real.mul_self_sqrt hq0
  have hq := Real.sqrt_nonneg ((S - x * x) / 2)
  set q := √((S - x * x) / 2)
  by_cases hx0 : x = 0
  · have : q = 0 := by
      have hS : S * S = 0 := by rw [hSS, hx0]; ring
      have hS' : S = 0 := by simpa using hS
      have : q * q = 0 := by rw [hqq, hS', hx0]; ring
      simpa using this
    simp [hx0, this]; linarith
  -- (q²)² = x² (W² - q²)
  have hquad : (q * q) * (q * q) = x * x * (W * W - q * q) := by
    rw [hqq]; nlinarith
  have hxx : 0 < x * x := mul_self_pos.mpr hx0
  have hqpos : 0 < q := by
    rcases hq.eq_or_lt with e | h
    · rw [← e] at hquad; nlinarith [mul_pos hxx (mul_pos hW hW)]
    · exact h
  have hlt : q * q < W * W := by
    have : 0 < x * x * (W * W - q * q) := by rw [← hquad]; positivity
    have := (pos_iff_pos_of_mul_pos this).mp hxx
    linarith
  have hqW : q < W := by nlinarith
  have hfrac : q / W < 1 := (div_lt_one hW).mpr hqW
  have hfrac0 : 0 < q / W := by positivity
  have ht : |sgn x * q / W| = q / W := by
    rcases lt_or_gt_of_ne hx0 with h | h
    · rw [sgn_neg h, neg_one_mul, neg_div, abs_neg, abs_of_pos hfrac0]
    · rw [sgn_pos h, one_mul, abs_of_pos hfrac0]
  have htt : sgn x * q / W * (sgn x * q / W) = (q / W) * (q / W) := by
    rw [← abs_mul_abs_self, ht]
  have habs := abs_lt.mp (by rw [ht]; exact hfrac : |sgn x * q / W| < 1)
  refine ⟨habs, ?_⟩
  rw [htt, ht]
  have hden : √(1 - q / W * (q / W)) = q * q / (|x| * W) := by
    have hxa : 0 < |x| := abs_pos.mpr hx0
    have : 1 - q / W * (q / W) = q * q / (|x| * W) * (q * q / (|x| * W)) := by
      have hxx' : |x| * |x| = x * x := abs_mul_abs_self x
      field_simp
      rw [show |x| ^ 2 = x * x by rw [sq]; exact hxx']
      nlinarith
    rw [this, Real.sqrt_mul_self (by positivity)]
  rw [hden]
  have hxa : |x| ≠ 0 := (abs_pos.mpr hx0).ne'
  have : W * (sgn x * q / W) * (q / W) / (q * q / (|x| * W)) = sgn x * |x| := by
    field_simp
  rw [this, sgn_mul_abs, hx]; ring

theorem v4_spec {W : ℝ} (hW : 0 < W) (c w : ℝ) :
    (-1 < v4 W c w ∧ v4 W c w < 1) ∧ v4Inv W c (v4 W c w) = w := by
  unfold v4Inv v4
  set x := w - c with hx
  by_cases hx0 : x = 0
  · simp [hx0]; linarith
  have hxa : 0 < |x| := abs_pos.mpr hx0
  have hfr : 0 < |x| / (|x| + W) := by positivity
  have hfr1 : |x| / (|x| + W) < 1 := (div_lt_one (by positivity)).mpr (by linarith)
  have hq : 0 < √(|x| / (|x| + W)) := Real.sqrt_pos.mpr hfr
  have hqq := Real.mul_self_sqrt hfr.le
  have hq1 : √(|x| / (|x| + W)) < 1 := by
    rw [show (1:ℝ) = √1 by simp]; exact Real.sqrt_lt_sqrt hfr.le hfr1
  set q := √(|x| / (|x| + W))
  have hs : sgn (sgn x * q) = sgn x := by
    rcases lt_or_gt_of_ne hx0 with h | h
    · rw [sgn_neg h, sgn_neg (by linarith)]
    · rw [sgn_pos h, one_mul, sgn_pos hq]
  have hsq : sgn x * q * (sgn x * q) = |x| / (|x| + W) := by
    rw [← hqq, show sgn x * q * (sgn x * q) = sgn x * sgn x * (q * q) by ring, sgn_sq hx0, one_mul]
  refine ⟨?_, ?_⟩
  · rcases lt_or_gt_of_ne hx0 with h | h
    · rw [sgn_neg h]; constructor <;> linarith
    · rw [sgn_pos h]; constructor <;> linarith
  · rw [hs, hsq]
    have : W * sgn x * (|x| / (|x| + W)) / (1 - |x| / (|x| + W)) = sgn x * |x| := by
      have : 1 - |x| / (|x| + W) = W / (|x| + W) := by field_simp; ring
      rw [this]; field_simp
    rw [this, sgn_mul_abs, hx]; ring

theorem v3_spec {W : ℝ} (hW : 0 < W) (c w : ℝ) :
    (-1 < v3 W c w ∧ v3 W c w < 1) ∧ (1 / 10^12 ≤ |w - c| → v3Inv W c (v3 W c w) = w) ∧
      (|w - c| < 1 / 10^12 → v3Inv W c (v3 W c w) = c) := by
  unfold v3Inv v3
  set x := w - c with hx
  by_cases hsmall : |x| < 1 / 10^12
  · simp only [hsmall, if_true]
    refine ⟨by norm_num, fun h => absurd hsmall (not_lt.mpr h), fun _ => by simp⟩
  · simp only [hsmall, if_false]
    have hx0 : x ≠ 0 := by rintro e; rw [e] at hsmall; norm_num at hsmall
    have hrad : 0 ≤ 4 * x * x + W * W := by nlinarith [mul_self_nonneg x]
    have hRR := Real.mul_self_sqrt hrad
    have hR0 := Real.sqrt_nonneg (4 * x * x + W * W)
    set R := √(4 * x * x + W * W)
    have hxx : 0 < x * x := mul_self_pos.mpr hx0
    have hRW : W < R := by nlinarith
    set t := (-W + R) / 2 / x with ht
    have hxt : x * t = (R - W) / 2 := by rw [ht]; field_simp; ring
    have hquad : x * (1 - t * t) = W * t := by
      have : x * (x * (1 - t * t)) = x * (W * t) := by
        have e1 : x * (x * (1 - t * t)) = x * x - (x * t) * (x * t) := by ring
        have e2 : x * (W * t) = W * (x * t) := by ring
        rw [e1, e2, hxt]; nlinarith
      exact mul_left_cancel₀ hx0 this
    have hpos : 0 < x * t := by rw [hxt]; linarith
    have h1t : 0 < 1 - t * t := by
      have : 0 < x * x * (1 - t * t) := by
        have : x * x * (1 - t * t) = W * (x * t) := by
          rw [mul_assoc, hquad]; ring
        rw [this]; positivity
      exact (pos_iff_pos_of_mul_pos this).mp hxx
    have hab : |t| < 1 := by
      apply abs_lt_of_sq_lt_sq _ zero_le_one
      nlinarith
    refine ⟨abs_lt.mp hab, fun _ => ?_, fun h => h.elim⟩
    rw [← hquad, mul_div_assoc, div_self h1t.ne', hx]; ring

end Verif.GridMap
