import Verif.Hybrid.Spec
import Mathlib.Tactic.FieldSimp
import Mathlib.Tactic.Ring
import Mathlib.Tactic.Linarith
import Mathlib.Tactic.LinearCombination
import Mathlib.Tactic.Positivity

namespace Verif.Hybrid
open GridMap (sgn)

theorem sgn_pos {x : ℝ} (h : 0 < x) : sgn x = 1 := by
  simp [sgn, h.le, not_le.mpr h]
theorem sgn_neg {x : ℝ} (h : x < 0) : sgn x = -1 := by
  simp [sgn, h.le, not_le.mpr h]
theorem sgn_zero : sgn 0 = 0 := by simp [sgn]

/-- The map on the positive axis. -/
noncomputable def Grid.F (g : Grid) (t : ℝ) : ℝ :=
  if t < g.a0 then t * t / g.curv else if t < g.a1 then g.p0 + (t - g.a0) / g.slope else g.fac / (1 - t / g.rescale)
noncomputable def Grid.G (g : Grid) (w : ℝ) : ℝ :=
  if w < g.p0 then √(w * g.curv) else if w < g.p1 then (w - g.p0) * g.slope + g.a0 else (1 - g.fac / w) * g.rescale

theorem freq_eq (g : Grid) (t : ℝ) : g.freq t = g.F |t| * sgn t := by
  unfold Grid.freq Grid.F; split_ifs <;> rfl
theorem tOf_eq (g : Grid) (w : ℝ) : g.tOf w = g.G |w| * sgn w := by
  unfold Grid.tOf Grid.G; split_ifs <;> rfl

section
variable {g : Grid} (h : g.Valid)
include h

theorem wpos : 0 < g.wUpper := lt_of_lt_of_le (lt_of_lt_of_le h.p0 h.p01) h.p1w
theorem p1pos : 0 < g.p1 := lt_of_lt_of_le h.p0 h.p01
theorem tempPos : 0 < g.temp := by have := h.p0; have := p1pos h; unfold Grid.temp; linarith
theorem quadPos : 0 < g.quad := by
  have a := h.p0; have b := p1pos h; have c := wpos h; have d := h.p1w
  unfold Grid.quad Grid.temp
  nlinarith [mul_pos a c, mul_le_mul_of_nonneg_left d b.le]
theorem curvPos : 0 < g.curv := by
  have a := h.p0; have c := wpos h; have d := h.t; have q := quadPos h
  unfold Grid.curv; positivity
theorem slopePos : 0 < g.slope := by
  have c := wpos h; have d := h.t; have q := quadPos h
  unfold Grid.slope; positivity
theorem facPos : 0 < g.fac := by
  have c := p1pos h; have d := tempPos h
  unfold Grid.fac; positivity
theorem rescalePos : 0 < g.rescale := by
  have c := wpos h; have d := h.t; have q := quadPos h; have e := tempPos h
  unfold Grid.rescale; positivity
theorem a0Pos : 0 < g.a0 := by
  have a := h.p0; have c := wpos h; have d := h.t; have q := quadPos h
  unfold Grid.a0; positivity

theorem a0_slope : g.a0 = 2 * g.p0 * g.slope := by
  have q := (quadPos h).ne'
  unfold Grid.a0 Grid.slope; field_simp
theorem a1_slope : g.a1 = (g.p0 + g.p1) * g.slope := by
  have q := (quadPos h).ne'
  unfold Grid.a1 Grid.slope; field_simp
theorem rescale_slope : g.rescale = g.temp * g.slope := by
  have q := (quadPos h).ne'
  unfold Grid.rescale Grid.slope; field_simp
theorem curv_slope : g.curv = 4 * g.p0 * (g.slope * g.slope) := by
  have q := (quadPos h).ne'
  unfold Grid.curv Grid.slope; field_simp
theorem t_slope : g.tUpper = g.slope * (g.temp - g.p1 * g.p1 / g.wUpper) := by
  have q := (quadPos h).ne'; have w := (wpos h).ne'
  have : g.quad = g.temp * g.wUpper - g.p1 * g.p1 := rfl
  unfold Grid.slope
  field_simp
  rw [this]
  ring

theorem a0_le_a1 : g.a0 ≤ g.a1 := by
  rw [a0_slope h, a1_slope h]
  exact mul_le_mul_of_nonneg_right (by linarith [h.p01]) (slopePos h).le
theorem a1_lt_rescale : g.a1 < g.rescale := by
  rw [a1_slope h, rescale_slope h]
  exact mul_lt_mul_of_pos_right (by unfold Grid.temp; linarith [p1pos h]) (slopePos h)
theorem a1_le_t : g.a1 ≤ g.tUpper := by
  rw [a1_slope h, t_slope h, mul_comm]
  refine mul_le_mul_of_nonneg_left ?_ (slopePos h).le
  have : g.p1 * g.p1 / g.wUpper ≤ g.p1 := by
    rw [div_le_iff₀ (wpos h)]
    exact mul_le_mul_of_nonneg_left h.p1w (p1pos h).le
  unfold Grid.temp; linarith
theorem t_lt_rescale : g.tUpper < g.rescale := by
  rw [t_slope h, rescale_slope h, mul_comm]
  refine mul_lt_mul_of_pos_right ?_ (slopePos h)
  have : 0 < g.p1 * g.p1 / g.wUpper := div_pos (mul_pos (p1pos h) (p1pos h)) (wpos h)
  linarith

/-- The rational part. -/
theorem rat_den {t : ℝ} (ht : t < g.rescale) : 0 < 1 - t / g.rescale := by
  rw [sub_pos, div_lt_one (rescalePos h)]; exact ht
theorem rat_ge {t : ℝ} (h1 : g.a1 ≤ t) (ht : t < g.rescale) : g.p1 ≤ g.fac / (1 - t / g.rescale) := by
  have hT := tempPos h; have hp := p1pos h; have hR := rescalePos h
  rw [le_div_iff₀ (rat_den h ht)]
  have e : g.a1 / g.rescale = (g.p0 + g.p1) / g.temp := by
    have := (slopePos h).ne'
    rw [a1_slope h, rescale_slope h]; field_simp
  have : (g.p0 + g.p1) / g.temp ≤ t / g.rescale := by
    rw [← e]; exact div_le_div_of_nonneg_right h1 hR.le
  have e2 : g.fac = g.p1 * (1 - (g.p0 + g.p1) / g.temp) := by
    unfold Grid.fac
    field_simp
    unfold Grid.temp
    ring
  rw [e2]
  exact mul_le_mul_of_nonneg_left (by linarith) hp.le

theorem F_zero : g.F 0 = 0 := by simp [Grid.F, a0Pos h]

/-- Values in the three sections. -/
theorem quad_lt {t : ℝ} (h0 : 0 ≤ t) (h1 : t < g.a0) : t * t / g.curv < g.p0 := by
  rw [div_lt_iff₀ (curvPos h), curv_slope h]
  have := a0_slope h
  have hs := slopePos h
  have hp := h.p0
  rw [this] at h1
  have : t * t < (2 * g.p0 * g.slope) * (2 * g.p0 * g.slope) := by nlinarith [mul_pos hp hs]
  linarith [this, (by ring : (2 * g.p0 * g.slope) * (2 * g.p0 * g.slope) = g.p0 * (4 * g.p0 * (g.slope * g.slope)))]
theorem lin_ge {t : ℝ} (h0 : g.a0 ≤ t) : g.p0 ≤ g.p0 + (t - g.a0) / g.slope := by
  have := div_nonneg (sub_nonneg.mpr h0) (slopePos h).le
  linarith
theorem lin_lt {t : ℝ} (h1 : t < g.a1) : g.p0 + (t - g.a0) / g.slope < g.p1 := by
  have : (t - g.a0) / g.slope < g.p1 - g.p0 := by
    rw [div_lt_iff₀ (slopePos h)]
    have e0 := a0_slope h; have e1 := a1_slope h
    have : (g.p1 - g.p0) * g.slope = g.a1 - g.a0 := by rw [e0, e1]; ring
    linarith
  linarith

theorem F_pos {t : ℝ} (h0 : 0 < t) (h1 : t < g.rescale) : 0 < g.F t := by
  unfold Grid.F
  split_ifs with c1 c2
  · exact div_pos (mul_pos h0 h0) (curvPos h)
  · exact lt_of_lt_of_le h.p0 (lin_ge h (not_lt.mp c1))
  · exact lt_of_lt_of_le (p1pos h) (rat_ge h (not_lt.mp c2) h1)

theorem F_mono {s t : ℝ} (h0 : 0 ≤ s) (hst : s < t) (h1 : t < g.rescale) : g.F s < g.F t := by
  have p01 := h.p01
  unfold Grid.F
  split_ifs with c1 c2 c3 c4 c5 c6 c7 c8
  · exact div_lt_div_of_pos_right (by nlinarith) (curvPos h)
  · exact lt_of_lt_of_le (quad_lt h h0 c1) (lin_ge h (not_lt.mp c2))
  · exact lt_of_lt_of_le (quad_lt h h0 c1) (le_trans p01 (rat_ge h (not_lt.mp c3) h1))
  · exact absurd (hst.trans c5) c1
  · have := div_lt_div_of_pos_right (sub_lt_sub_right hst g.a0) (slopePos h); linarith
  · exact lt_of_lt_of_le (lin_lt h c4) (rat_ge h (not_lt.mp c6) h1)
  · exact absurd (hst.trans c7) c1
  · exact absurd (hst.trans c8) c4
  · refine div_lt_div_of_pos_left (facPos h) (rat_den h h1) ?_
    have := div_lt_div_of_pos_right hst (rescalePos h)
    linarith

theorem G_F {t : ℝ} (h0 : 0 ≤ t) (h1 : t < g.rescale) : g.G (g.F t) = t := by
  unfold Grid.F
  split_ifs with c1 c2
  · unfold Grid.G
    rw [if_pos (quad_lt h h0 c1), div_mul_cancel₀ _ (curvPos h).ne', Real.sqrt_mul_self h0]
  · unfold Grid.G
    rw [if_neg (not_lt.mpr (lin_ge h (not_lt.mp c1))), if_pos (lin_lt h c2), add_sub_cancel_left,
      div_mul_cancel₀ _ (slopePos h).ne', sub_add_cancel]
  · have r := rat_ge h (not_lt.mp c2) h1
    unfold Grid.G
    rw [if_neg (not_lt.mpr (h.p01.trans r)), if_neg (not_lt.mpr r)]
    have f := (facPos h).ne'; have d := (rat_den h h1).ne'; have q := (rescalePos h).ne'
    rw [div_div_cancel₀ f]
    field_simp
    ring

theorem G_quad {w : ℝ} (h1 : w < g.p0) : √(w * g.curv) < g.a0 := by
  rw [← Real.sqrt_sq (a0Pos h).le]
  refine Real.sqrt_lt_sqrt_iff_of_pos (pow_pos (a0Pos h) 2) |>.mpr ?_
  rw [a0_slope h, curv_slope h]
  have := slopePos h
  have : 0 < g.slope * g.slope := mul_pos this this
  nlinarith [mul_pos h.p0 this]
theorem G_rat {w : ℝ} (h1 : g.p1 ≤ w) : g.a1 ≤ (1 - g.fac / w) * g.rescale ∧ (1 - g.fac / w) * g.rescale < g.rescale := by
  have w0 : 0 < w := lt_of_lt_of_le (p1pos h) h1
  have hT := tempPos h
  constructor
  · rw [a1_slope h, rescale_slope h]
    have e2 : g.fac / w ≤ g.p1 / g.temp := by
      unfold Grid.fac
      rw [div_div, div_le_div_iff₀ (mul_pos hT w0) hT]
      have := mul_le_mul_of_nonneg_left h1 (mul_pos (p1pos h) hT).le
      linarith [this, (by ring : g.p1 * g.p1 * g.temp = g.p1 * g.temp * g.p1),
        (by ring : g.p1 * (g.temp * w) = g.p1 * g.temp * w)]
    have e3 : (g.p0 + g.p1) = (1 - g.p1 / g.temp) * g.temp := by
      field_simp; unfold Grid.temp; ring
    rw [e3, mul_assoc]
    exact mul_le_mul_of_nonneg_right (by linarith) (mul_pos hT (slopePos h)).le
  · have := div_pos (facPos h) w0
    have r := rescalePos h
    nlinarith

theorem F_G {w : ℝ} (h0 : 0 ≤ w) : g.F (g.G w) = w ∧ 0 ≤ g.G w ∧ g.G w < g.rescale := by
  have hs := slopePos h
  unfold Grid.G
  split_ifs with c1 c2
  · have q := G_quad h c1
    refine ⟨?_, Real.sqrt_nonneg _, q.trans_le ((a0_le_a1 h).trans (a1_lt_rescale h).le)⟩
    unfold Grid.F
    rw [if_pos q, Real.mul_self_sqrt (mul_nonneg h0 (curvPos h).le), mul_div_cancel_right₀ _ (curvPos h).ne']
  · have l1 : g.a0 ≤ (w - g.p0) * g.slope + g.a0 := by
      have := mul_nonneg (sub_nonneg.mpr (not_lt.mp c1)) hs.le; linarith
    have l2 : (w - g.p0) * g.slope + g.a0 < g.a1 := by
      rw [a0_slope h, a1_slope h]
      have := mul_lt_mul_of_pos_right c2 hs
      linarith
    refine ⟨?_, (a0Pos h).le.trans l1, l2.trans (a1_lt_rescale h)⟩
    unfold Grid.F
    rw [if_neg (not_lt.mpr l1), if_pos l2, add_sub_cancel_right, mul_div_cancel_right₀ _ hs.ne']
    ring
  · obtain ⟨r1, r2⟩ := G_rat h (not_lt.mp c2)
    have w0 : 0 < w := lt_of_lt_of_le (p1pos h) (not_lt.mp c2)
    refine ⟨?_, ((a0Pos h).le.trans (a0_le_a1 h)).trans r1, r2⟩
    unfold Grid.F
    rw [if_neg (not_lt.mpr ((a0_le_a1 h).trans r1)), if_neg (not_lt.mpr r1), mul_div_cancel_right₀ _ (rescalePos h).ne',
      sub_sub_cancel, div_div_cancel₀ (facPos h).ne']

theorem F_upper : g.F g.tUpper = g.wUpper := by
  have l := a1_le_t h
  unfold Grid.F
  rw [if_neg (not_lt.mpr ((a0_le_a1 h).trans l)), if_neg (not_lt.mpr l)]
  have e : g.tUpper / g.rescale = 1 - g.p1 * g.p1 / (g.wUpper * g.temp) := by
    have hs := (slopePos h).ne'; have hT := (tempPos h).ne'; have hw := (wpos h).ne'
    rw [rescale_slope h]
    conv_lhs => rw [t_slope h]
    field_simp
  rw [e, sub_sub_cancel]
  unfold Grid.fac
  have hT := (tempPos h).ne'; have hw := (wpos h).ne'; have hp := (p1pos h).ne'
  field_simp

end

/-! Odd extension. -/

theorem odd_mono {H : ℝ → ℝ} {r : ℝ} (h0 : H 0 = 0) (hm : ∀ s t, 0 ≤ s → s < t → t < r → H s < H t) {s t : ℝ}
    (hs : -r < s) (hst : s < t) (ht : t < r) : H |s| * sgn s < H |t| * sgn t := by
  have hp : ∀ x, 0 < x → x < r → 0 < H x := fun x hx hr => by simpa [h0] using hm 0 x le_rfl hx hr
  rcases lt_trichotomy s 0 with a | a | a <;> rcases lt_trichotomy t 0 with b | b | b
  · rw [sgn_neg a, sgn_neg b, abs_of_neg a, abs_of_neg b]
    have := hm (-t) (-s) (by linarith) (by linarith) (by linarith)
    linarith
  · subst b; rw [sgn_neg a, sgn_zero, abs_of_neg a]
    have := hp (-s) (by linarith) (by linarith); linarith
  · rw [sgn_neg a, sgn_pos b, abs_of_neg a, abs_of_pos b]
    have := hp (-s) (by linarith) (by linarith); have := hp t b ht; linarith
  · linarith
  · linarith
  · subst a; rw [sgn_pos b, sgn_zero, abs_of_pos b]
    have := hp t b ht; linarith
  · linarith
  · linarith
  · rw [sgn_pos a, sgn_pos b, abs_of_pos a, abs_of_pos b]
    have := hm s t a.le hst ht; linarith

theorem odd_inv {H K : ℝ → ℝ} {t : ℝ} (hi : K (H |t|) = |t|) (hp : t ≠ 0 → 0 < H |t|) :
    K |H |t| * sgn t| * sgn (H |t| * sgn t) = t := by
  rcases lt_trichotomy t 0 with a | a | a
  · have p := hp a.ne
    rw [sgn_neg a, mul_neg_one, abs_neg, abs_of_pos p, sgn_neg (by linarith), hi, abs_of_neg a]; ring
  · subst a; simp [sgn_zero]
  · have p := hp a.ne'
    rw [sgn_pos a, mul_one, abs_of_pos p, sgn_pos p, hi, abs_of_pos a, mul_one]

end Verif.Hybrid
