import Verif.Tails.Props
import Mathlib.Analysis.SumIntegralComparisons
import Mathlib.Topology.Order.MonotoneConvergence
import Mathlib.MeasureTheory.Integral.IntervalIntegral.Basic

/-! C99: how the tail completes a frequency sum. -/
namespace Verif.Tails
open Complex MeasureTheory Filter Topology

/-- The summands of the omitted frequencies `±(vmax + h), ±(vmax + 2 h), …`, up to the `m`-th pair. -/
noncomputable def omitted (F : ℝ → ℝ) (h vmax : ℝ) (m : Nat) : ℝ :=
  h * ∑ i ∈ Finset.range m, (F (vmax + h * ((i : ℝ) + 1)) + F (-(vmax + h * ((i : ℝ) + 1))))

/-- Riemann sums of a decreasing even function. -/
theorem riemann {g : ℝ → ℝ} {h a : ℝ} (hh : 0 < h) (hg : AntitoneOn g (Set.Ici a)) (m : Nat) :
    h * ∑ i ∈ Finset.range m, g (a + h * ((i : ℝ) + 1)) ≤ ∫ v in a..(a + h * m), g v ∧
    ∫ v in a..(a + h * m), g v ≤ h * ∑ i ∈ Finset.range m, g (a + h * (i : ℝ)) := by
  have hsub : (∫ v in a..(a + h * m), g v) = h * ∫ t in (0 : ℝ)..(0 + (m : ℝ)), g (h * t + a) := by
    rw [intervalIntegral.integral_comp_mul_add g hh.ne' a]
    rw [smul_eq_mul, ← mul_assoc, mul_inv_cancel₀ hh.ne', one_mul]
    congr 1 <;> ring
  have hmono : AntitoneOn (fun t => g (h * t + a)) (Set.Icc 0 (0 + (m : ℝ))) := by
    intro x hx y hy hxy
    have hx0 := mul_nonneg hh.le hx.1
    have hy0 := mul_nonneg hh.le hy.1
    refine hg ?_ ?_ ?_
    · show a ≤ h * x + a; linarith
    · show a ≤ h * y + a; linarith
    · have := mul_le_mul_of_nonneg_left hxy hh.le; linarith
  rw [hsub]
  constructor
  · apply mul_le_mul_of_nonneg_left _ hh.le
    refine le_trans (le_of_eq ?_) hmono.sum_le_integral
    apply Finset.sum_congr rfl
    intro i _
    congr 1; push_cast; ring
  · apply mul_le_mul_of_nonneg_left _ hh.le
    refine le_trans hmono.integral_le_sum (le_of_eq ?_)
    apply Finset.sum_congr rfl
    intro i _
    congr 1; ring

theorem sum_shift (g : Nat → ℝ) (m : Nat) : ∑ i ∈ Finset.range m, g i ≤ g 0 + ∑ i ∈ Finset.range m, g (i + 1) - g m := by
  have := Finset.sum_range_succ' g m
  have h2 := Finset.sum_range_succ g m
  linarith

/-- Sum against tail for an even decreasing function. -/
theorem sum_tail {f : ℝ → ℂ} {F : ℝ → ℝ} {h vmax t : ℝ} (hh : 0 < h) (hv : 0 < vmax)
    (hf : ∀ v, vmax ≤ |v| → f v = -(F v : ℂ)) (heven : ∀ v, F (-v) = F v) (hpos : ∀ v, vmax ≤ v → 0 ≤ F v)
    (hanti : AntitoneOn F (Set.Ici vmax)) (ht : IsTail f (-vmax) vmax (-(t : ℂ))) :
    ∃ rest, Tendsto (omitted F h vmax) atTop (𝓝 rest) ∧ rest ≤ t ∧ t ≤ rest + h * (F vmax + F (-vmax)) := by
  set J : Nat → ℝ := fun m => 2 * ∫ v in vmax..(vmax + h * m), F v with hJ
  have hint : ∀ R, vmax ≤ R → (∫ v in (-R)..(-vmax), f v) + (∫ v in vmax..R, f v) = -((2 * ∫ v in vmax..R, F v : ℝ) : ℂ) := by
    intro R hR
    have e1 : (∫ v in vmax..R, f v) = -((∫ v in vmax..R, F v : ℝ) : ℂ) := by
      rw [← intervalIntegral.integral_ofReal, ← intervalIntegral.integral_neg]
      apply intervalIntegral.integral_congr
      intro v hv'
      rw [Set.uIcc_of_le hR] at hv'
      exact hf v (le_trans hv'.1 (le_abs_self v))
    have e2 : (∫ v in (-R)..(-vmax), f v) = -((∫ v in vmax..R, F v : ℝ) : ℂ) := by
      rw [← intervalIntegral.integral_comp_neg, ← intervalIntegral.integral_ofReal, ← intervalIntegral.integral_neg]
      apply intervalIntegral.integral_congr
      intro v hv'
      rw [Set.uIcc_of_le hR] at hv'
      show f (-v) = _
      rw [hf (-v) (by rw [abs_neg]; exact le_trans hv'.1 (le_abs_self v)), heven]
    rw [e1, e2]; push_cast; ring
  have hR : Tendsto (fun m : Nat => vmax + h * (m : ℝ)) atTop atTop :=
    tendsto_atTop_add_const_left _ _ (tendsto_natCast_atTop_atTop.const_mul_atTop hh)
  have hJt : Tendsto J atTop (𝓝 t) := by
    have h1 := ht.comp hR
    have h2 : Tendsto (fun m : Nat => -((J m : ℝ) : ℂ)) atTop (𝓝 (-(t : ℂ))) := by
      refine h1.congr fun m => ?_
      exact hint _ (by have := mul_nonneg hh.le (Nat.cast_nonneg (α := ℝ) m); linarith)
    have h3 := (continuous_re.tendsto _).comp h2
    have h4 : Tendsto (fun m : Nat => -J m) atTop (𝓝 (-t)) := by simpa [Function.comp_def] using h3
    simpa using h4.neg
  have hom : ∀ m, omitted F h vmax m = 2 * (h * ∑ i ∈ Finset.range m, F (vmax + h * ((i : ℝ) + 1))) := by
    intro m
    simp only [omitted, heven, ← two_mul, ← Finset.mul_sum]; ring
  have hle : ∀ m, omitted F h vmax m ≤ J m := by
    intro m; rw [hom, hJ]
    have := (riemann hh hanti m).1
    linarith
  have hge : ∀ m, J m ≤ omitted F h vmax m + h * (F vmax + F (-vmax)) := by
    intro m
    have h1 := (riemann hh hanti m).2
    have h2 := sum_shift (fun i : Nat => F (vmax + h * (i : ℝ))) m
    have h3 := hpos (vmax + h * (m : ℝ)) (by have := mul_nonneg hh.le (Nat.cast_nonneg (α := ℝ) m); linarith)
    simp only [Nat.cast_zero, mul_zero, add_zero, Nat.cast_add, Nat.cast_one] at h2
    have h4 := mul_le_mul_of_nonneg_left (h2.trans (sub_le_self _ h3)) hh.le
    rw [hom, heven, hJ]
    linarith
  have hmono : Monotone (omitted F h vmax) := by
    apply monotone_nat_of_le_succ
    intro m
    rw [hom, hom, Finset.sum_range_succ]
    have h3 := hpos (vmax + h * ((m : ℝ) + 1)) (by have := mul_nonneg hh.le (by positivity : (0 : ℝ) ≤ (m : ℝ) + 1); linarith)
    have := mul_nonneg hh.le h3
    linarith
  have hJmono : Monotone J := by
    apply monotone_nat_of_le_succ
    intro m
    have hstep := (riemann (g := F) (a := vmax + h * m) hh (hanti.mono (by
      intro x hx; have := mul_nonneg hh.le (Nat.cast_nonneg (α := ℝ) m)
      show vmax ≤ x; have hx' : vmax + h * m ≤ x := hx; linarith)) 1).1
    have h3 := hpos (vmax + h * (m : ℝ) + h * (((0 : ℕ) : ℝ) + 1)) (by
      have := mul_nonneg hh.le (Nat.cast_nonneg (α := ℝ) m); simp; linarith)
    simp only [Finset.range_one, Finset.sum_singleton] at hstep
    have hii : ∀ x y : ℝ, vmax ≤ x → vmax ≤ y → IntervalIntegrable F volume x y := by
      intro x y hx hy
      apply AntitoneOn.intervalIntegrable
      exact hanti.mono (fun z hz => le_trans (le_min hx hy) hz.1)
    have hm := mul_nonneg hh.le (Nat.cast_nonneg (α := ℝ) m)
    have hadd := intervalIntegral.integral_add_adjacent_intervals (hii vmax (vmax + h * m) le_rfl (by linarith))
      (hii (vmax + h * m) (vmax + h * m + h * ((1 : ℕ) : ℝ)) (by linarith) (by simp; linarith))
    have hend : vmax + h * ((m + 1 : ℕ) : ℝ) = vmax + h * m + h * ((1 : ℕ) : ℝ) := by push_cast; ring
    simp only [hJ]
    rw [hend, ← hadd]
    have := mul_nonneg hh.le h3
    linarith
  have hbdd : ∀ m, omitted F h vmax m ≤ t := fun m => (hle m).trans (hJmono.ge_of_tendsto hJt m)
  refine ⟨_, tendsto_atTop_ciSup hmono ⟨t, by rintro _ ⟨m, rfl⟩; exact hbdd m⟩, ciSup_le hbdd, ?_⟩
  exact le_of_tendsto_of_tendsto' hJt ((tendsto_atTop_ciSup hmono ⟨t, by rintro _ ⟨m, rfl⟩; exact hbdd m⟩).add_const _) hge

/-- The modulus of the bubble beyond the box. -/
theorem bubble_modulus {p : Propagator.Par} {H w vmax : ℝ} (hyb : 0 ≤ p.Gam + p.Lam) (ch : Bool) (h1 : |w| / 2 < vmax)
    {v : ℝ} (hv : vmax ≤ |v|) :
    bubbleValue true ch false (prop2 true p H) (single2 true p H) w v =
      ((if ch then 1 else -1 : ℝ) * (1 / ((|v| + (p.Gam + p.Lam) / 2) ^ 2 - (w / 2) ^ 2)) : ℝ) := by
  have hw := abs_le.mp (le_refl |w|)
  set Δ := (p.Gam + p.Lam) / 2 with hΔ
  have hΔ0 : 0 ≤ Δ := by rw [hΔ]; linarith
  have hsplit : ∀ u : ℝ, (u + Δ) ^ 2 - (w / 2) ^ 2 = (u - w / 2 + Δ) * (u + w / 2 + Δ) := fun u => by ring
  rcases le_total 0 v with h0 | h0
  · rw [abs_of_nonneg h0] at hv ⊢
    rw [hsplit]
    cases ch
    · simp only [bubbleValue, Bool.false_eq_true, if_false, if_true]
      rw [prop2_phs_pos (by linarith), prop2_phs_pos (by linarith), div_mul_div_comm, ← hΔ]
      push_cast; ring
    · simp only [bubbleValue, Bool.false_eq_true, if_false, if_true]
      rw [prop2_phs_pos (by linarith), prop2_phs_neg (by linarith), ← hΔ]
      push_cast; simp only [one_div, mul_inv, inv_neg]; ring_nf
  · rw [abs_of_nonpos h0] at hv ⊢
    rw [hsplit]
    cases ch
    · simp only [bubbleValue, Bool.false_eq_true, if_false, if_true]
      rw [prop2_phs_neg (by linarith), prop2_phs_neg (by linarith), ← hΔ]
      push_cast; simp only [one_div, mul_inv, inv_neg]; ring_nf
    · simp only [bubbleValue, Bool.false_eq_true, if_false, if_true]
      rw [prop2_phs_neg (by linarith), prop2_phs_pos (by linarith), ← hΔ]
      push_cast; simp only [one_div, mul_inv, inv_neg]; ring_nf

/-- C99: with particle-hole symmetry, the tail and all summands beyond the summation range have the same sign, and the
modulus of the tail is at least the sum of the moduli of the omitted summands (spacing `h = 2πT`, range symmetric up to
`vmax`) and exceeds it by at most the two outermost summands of the range. -/
theorem c99_completion (p : Propagator.Par) (H w vmax h : ℝ) (hyb : 0 ≤ p.Gam + p.Lam) (eps : ℂ) (ch : Bool)
    (hh : 0 < h) (h1 : |w| / 2 < vmax) :
    let B := bubbleValue true ch false (prop2 true p H) (single2 true p H) w
    let σ : ℝ := if ch then 1 else -1
    ∃ x rest : ℝ, matsubaraTail 2 true ch w (-vmax) vmax eps p.Gam p.Lam false = some (.ok x) ∧
      (∀ v, vmax ≤ |v| → B v = (σ * ‖B v‖ : ℝ)) ∧ x = σ * |x| ∧
      Tendsto (omitted (fun v => ‖B v‖) h vmax) atTop (𝓝 rest) ∧
      rest ≤ |x| ∧ |x| ≤ rest + h * (‖B vmax‖ + ‖B (-vmax)‖) := by
  intro B σ
  obtain ⟨x, hx, ht⟩ := c98_matsubara_phs p H w (-vmax) vmax hyb eps ch false h1 (by rw [neg_neg]; exact h1)
  set Δ := (p.Gam + p.Lam) / 2 with hΔ
  have hΔ0 : 0 ≤ Δ := by rw [hΔ]; linarith
  have hw0 := abs_nonneg w
  have hσ : |σ| = 1 := by simp only [σ]; split_ifs <;> norm_num
  have hσ2 : σ * σ = 1 := by simp only [σ]; split_ifs <;> norm_num
  set F : ℝ → ℝ := fun v => 1 / ((|v| + Δ) ^ 2 - (w / 2) ^ 2) with hF
  have hval : ∀ v, vmax ≤ |v| → B v = (σ * F v : ℝ) := fun v hv => bubble_modulus hyb ch h1 hv
  have hden : ∀ v, vmax ≤ |v| → 0 < (|v| + Δ) ^ 2 - (w / 2) ^ 2 := by
    intro v hv
    have : (w / 2) ^ 2 = (|w| / 2) ^ 2 := by rw [div_pow, div_pow, sq_abs]
    rw [this]
    nlinarith
  have hFpos : ∀ v, vmax ≤ |v| → 0 < F v := fun v hv => one_div_pos.mpr (hden v hv)
  have hnorm : ∀ v, vmax ≤ |v| → ‖B v‖ = F v := by
    intro v hv
    rw [hval v hv, Complex.norm_real, Real.norm_eq_abs, abs_mul, hσ, one_mul, abs_of_pos (hFpos v hv)]
  have hvpos : 0 < vmax := by linarith
  have habs : ∀ v, vmax ≤ v → vmax ≤ |v| := fun v hv => hv.trans (le_abs_self v)
  have ht' := ht.smul ((-σ : ℝ) : ℂ)
  obtain ⟨rest, hr, hle, hge⟩ := sum_tail (F := F) (t := σ * x) (h := h) (vmax := vmax) hh hvpos
    (fun v hv => by
      show ((-σ : ℝ) : ℂ) * B v = _
      rw [hval v hv, ← ofReal_mul, ← ofReal_neg, ofReal_inj]; linear_combination (-F v) * hσ2)
    (fun v => by simp only [hF, abs_neg]) (fun v hv => (hFpos v (habs v hv)).le)
    (by
      intro a ha b hb hab
      have ha' : vmax ≤ a := ha
      have hb' : vmax ≤ b := hb
      apply one_div_le_one_div_of_le (hden a (habs a ha'))
      rw [abs_of_nonneg (by linarith : (0 : ℝ) ≤ a), abs_of_nonneg (by linarith : (0 : ℝ) ≤ b)]
      nlinarith)
    (by convert ht' using 1; push_cast; ring)
  have hrest0 : 0 ≤ rest := by
    refine ge_of_tendsto' hr fun m => ?_
    apply mul_nonneg hh.le
    apply Finset.sum_nonneg
    intro i _
    have hi : vmax ≤ vmax + h * ((i : ℝ) + 1) := by
      have := mul_nonneg hh.le (by positivity : (0 : ℝ) ≤ (i : ℝ) + 1); linarith
    have := hFpos _ (habs _ hi)
    have := hFpos (-(vmax + h * ((i : ℝ) + 1))) (by rw [abs_neg]; exact habs _ hi)
    linarith
  have hxa : σ * x = |x| := by
    have h0 : 0 ≤ σ * x := hrest0.trans hle
    rw [← abs_of_nonneg h0, abs_mul, hσ, one_mul]
  refine ⟨x, rest, hx, fun v hv => ?_, ?_, ?_, by rwa [← hxa], ?_⟩
  · rw [hnorm v hv]; exact hval v hv
  · rw [← hxa]; linear_combination (-x) * hσ2
  · refine hr.congr fun m => ?_
    simp only [omitted]
    congr 1
    apply Finset.sum_congr rfl
    intro i _
    have hi : vmax ≤ vmax + h * ((i : ℝ) + 1) := by
      have := mul_nonneg hh.le (by positivity : (0 : ℝ) ≤ (i : ℝ) + 1); linarith
    rw [hnorm _ (habs _ hi), hnorm _ (by rw [abs_neg]; exact habs _ hi)]
  · rw [← hxa, hnorm _ (habs _ le_rfl), hnorm (-vmax) (by rw [abs_neg]; exact habs _ le_rfl)]
    exact hge

/-- The hypotheses of `c99_completion` and of `c98_matsubara` are met, with a non-zero tail. -/
example : ∃ x : ℝ, matsubaraTail 2 true false 0 (-1) 1 0 1 1 false = some (.ok x) ∧ x = -1 := by
  refine ⟨_, by simp only [matsubaraTail, if_true]; rfl, ?_⟩
  simp [atPHS, hybridisation]; norm_num

end Verif.Tails
