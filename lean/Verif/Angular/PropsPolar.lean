import Verif.Angular.Polar
import Verif.Angular.Props

/-
C110: polar frequency coordinates.
-/
namespace Verif.Angular

theorem norm_mk (x y : ℝ) : ‖(⟨x, y⟩ : ℂ)‖ = √(x * x + y * y) := by
  rw [Complex.norm_def, Complex.normSq_mk]

theorem polar_arg {r φ : ℝ} (hr : 0 < r) (h1 : -Real.pi < φ) (h2 : φ ≤ Real.pi) :
    atan2 (r * Real.sin φ) (r * Real.cos φ) = φ := by
  have := Complex.arg_mul_cos_add_sin_mul_I hr ⟨h1, h2⟩
  rw [atan2]
  refine Eq.trans ?_ this
  congr 1
  apply Complex.ext <;> simp [Complex.cos_ofReal_re, Complex.sin_ofReal_re]

/-- C110, what holds for two frequencies: going to polar coordinates and back gives the frequencies, and the coordinates
are in their range. -/
theorem c110_two_partial (p : ℝ × ℝ) : k2Out (k2In p) = p ∧ 0 ≤ (k2In p).1 ∧ -Real.pi < (k2In p).2 ∧ (k2In p).2 ≤ Real.pi := by
  obtain ⟨w, v⟩ := p
  have e : √(w * w * (1 / 4) + v * v) = ‖(⟨w * (1 / 2), v⟩ : ℂ)‖ := by
    rw [norm_mk]; congr 1; ring
  refine ⟨?_, Real.sqrt_nonneg _, Complex.neg_pi_lt_arg _, Complex.arg_le_pi _⟩
  simp only [k2In, k2Out, e, atan2, Complex.norm_mul_cos_arg, Complex.norm_mul_sin_arg]
  ext <;> simp

/-- C110, what holds: polar coordinates are recovered from the frequencies, except at the origin and at the angle `-π`. -/
theorem c110_two_back_partial (r φ : ℝ) (hr : 0 < r) (h1 : -Real.pi < φ) (h2 : φ ≤ Real.pi) : k2In (k2Out (r, φ)) = (r, φ) := by
  have e : r * Real.cos φ * 2 * (1 / 2) = r * Real.cos φ := by ring
  simp only [k2In, k2Out, e, polar_arg hr h1 h2]
  congr 1
  have : r * Real.cos φ * 2 * (r * Real.cos φ * 2) * (1 / 4) + r * Real.sin φ * (r * Real.sin φ) = r ^ 2 := by
    have := Real.sin_sq_add_cos_sq φ
    linear_combination r ^ 2 * this
  rw [this, Real.sqrt_sq hr.le]

/-- C110, what holds for three frequencies: going to polar coordinates and back gives the frequencies, for every radius
that is not cut off; the coordinates are in their range. -/
theorem c110_three_partial (p : ℝ × ℝ × ℝ) :
    (1 / 10 ^ 15 ≤ (k3In p).1 ∨ p = 0 → k3Out (k3In p) = p) ∧ 0 ≤ (k3In p).1 ∧
      (-Real.pi < (k3In p).2.1 ∧ (k3In p).2.1 ≤ Real.pi) ∧ (0 ≤ (k3In p).2.2 ∧ (k3In p).2.2 ≤ Real.pi) := by
  refine ⟨fun h => ?_, Real.sqrt_nonneg _, ⟨Complex.neg_pi_lt_arg _, Complex.arg_le_pi _⟩, ?_⟩
  · rcases h with h | h
    · obtain ⟨w, v, u⟩ := p
      simp only [k3In] at h
      simp only [k3In, k3Out, if_neg (not_lt.mpr h)]
      set ρ := √(w * w * (1 / 4) + v * v + u * u) with hρ
      have r0 : 0 < ρ := lt_of_lt_of_le (by norm_num) h
      have sq : ρ ^ 2 = w * w * (1 / 4) + v * v + u * u := by
        rw [hρ, Real.sq_sqrt]; nlinarith [mul_self_nonneg w, mul_self_nonneg v, mul_self_nonneg u]
      have b1 : (w * (1 / 2)) ^ 2 ≤ ρ ^ 2 := by rw [sq]; nlinarith [mul_self_nonneg v, mul_self_nonneg u]
      have b2 := abs_le_of_sq_le_sq' b1 r0.le
      have c : Real.cos (Real.arccos (w * (1 / 2) / ρ)) = w * (1 / 2) / ρ :=
        Real.cos_arccos (by rw [le_div_iff₀ r0]; linarith) (by rw [div_le_one r0]; linarith)
      have s : ρ * Real.sin (Real.arccos (w * (1 / 2) / ρ)) = ‖(⟨u, v⟩ : ℂ)‖ := by
        rw [Real.sin_arccos, norm_mk]
        have : 1 - (w * (1 / 2) / ρ) ^ 2 = (u * u + v * v) / ρ ^ 2 := by
          field_simp
          rw [sq]; ring
        rw [this, Real.sqrt_div (by nlinarith [mul_self_nonneg v, mul_self_nonneg u]), Real.sqrt_sq r0.le]
        field_simp
      have e1 : ρ * Real.sin (atan2 v u) * Real.sin (Real.arccos (w * (1 / 2) / ρ)) = v := by
        have := Complex.norm_mul_sin_arg (⟨u, v⟩ : ℂ)
        rw [← s] at this
        simp only at this
        unfold atan2
        linear_combination this
      have e2 : ρ * Real.cos (atan2 v u) * Real.sin (Real.arccos (w * (1 / 2) / ρ)) = u := by
        have := Complex.norm_mul_cos_arg (⟨u, v⟩ : ℂ)
        rw [← s] at this
        simp only at this
        unfold atan2
        linear_combination this
      rw [e1, e2, c]
      ext <;> simp
      field_simp
    · subst h
      simp [k3In, k3Out]
  · simp only [k3In]
    split_ifs
    · exact ⟨le_rfl, Real.pi_pos.le⟩
    · exact ⟨Real.arccos_nonneg _, Real.arccos_le_pi _⟩

/-- C110, what holds: the polar coordinates of three frequencies are recovered away from the poles. -/
theorem c110_three_back_partial (r φ θ : ℝ) (hr : 1 / 10 ^ 15 ≤ r) (h1 : -Real.pi < φ) (h2 : φ ≤ Real.pi) (h3 : 0 < θ)
    (h4 : θ < Real.pi) : k3In (k3Out (r, φ, θ)) = (r, φ, θ) := by
  have r0 : 0 < r := lt_of_lt_of_le (by norm_num) hr
  have st := Real.sin_pos_of_pos_of_lt_pi h3 h4
  have n : √(r * Real.cos θ * 2 * (r * Real.cos θ * 2) * (1 / 4) + r * Real.sin φ * Real.sin θ * (r * Real.sin φ * Real.sin θ) +
      r * Real.cos φ * Real.sin θ * (r * Real.cos φ * Real.sin θ)) = r := by
    have : r * Real.cos θ * 2 * (r * Real.cos θ * 2) * (1 / 4) + r * Real.sin φ * Real.sin θ * (r * Real.sin φ * Real.sin θ) +
        r * Real.cos φ * Real.sin θ * (r * Real.cos φ * Real.sin θ) = r ^ 2 := by
      have a := Real.sin_sq_add_cos_sq φ
      have b := Real.sin_sq_add_cos_sq θ
      linear_combination r ^ 2 * Real.sin θ ^ 2 * a + r ^ 2 * b
    rw [this, Real.sqrt_sq r0.le]
  have a : atan2 (r * Real.sin φ * Real.sin θ) (r * Real.cos φ * Real.sin θ) = φ := by
    have := polar_arg (mul_pos r0 st) h1 h2
    have e1 : r * Real.sin φ * Real.sin θ = r * Real.sin θ * Real.sin φ := by ring
    have e2 : r * Real.cos φ * Real.sin θ = r * Real.sin θ * Real.cos φ := by ring
    rw [e1, e2, this]
  have c : Real.arccos (r * Real.cos θ * 2 * (1 / 2) / r) = θ := by
    have : r * Real.cos θ * 2 * (1 / 2) / r = Real.cos θ := by field_simp
    rw [this, Real.arccos_cos h3.le h4.le]
  simp only [k3In, k3Out, n, a, if_neg (not_lt.mpr hr), c]

/-- C110 is false at the lower edge of the angles: the first angle of the grid, `-π`, stands for the same frequencies as
the last one, and what is stored for it is never read: the coordinates of its frequencies are those of the last angle. -/
theorem c110_seam_refuted (n m : Nat) (hn : 2 ≤ n) (hm : 0 < m) (r : ℝ) (hr : 0 < r) :
    let g := build n m Real.pi false
    g.all 0 = -Real.pi ∧ g.all (n - 1) = Real.pi ∧ k2Out (r, g.all 0) = k2Out (r, g.all (n - 1)) ∧
      k2In (k2Out (r, g.all 0)) = (r, g.all (n - 1)) ∧ ∀ p, (k2In p).2 ≠ g.all 0 := by
  intro g
  obtain ⟨v, b⟩ := build_ok n m hn hm Real.pi Real.pi_pos false
  obtain ⟨a, z, _⟩ := c109_points_partial v b
  have a' : g.all 0 = -Real.pi := a
  have z' : g.all (n - 1) = Real.pi := z
  have e : k2Out (r, -Real.pi) = k2Out (r, Real.pi) := by simp [k2Out]
  refine ⟨a', z', ?_, ?_, fun p => ?_⟩
  · rw [a', z', e]
  · rw [a', z', e]
    exact c110_two_back_partial r _ hr (by linarith [Real.pi_pos]) le_rfl
  · rw [a']
    exact (Complex.neg_pi_lt_arg _).ne'

/-- C110 is false of very small radii for three frequencies: below the cut-off the direction is lost. -/
theorem c110_cutoff_refuted (ε : ℝ) (h0 : 0 < ε) (h1 : ε < 1 / 10 ^ 15) : k3Out (k3In (0, ε, 0)) = (2 * ε, 0, 0) := by
  have e : √(0 * 0 * (1 / 4) + ε * ε + 0 * 0) = ε := by
    rw [show (0 : ℝ) * 0 * (1 / 4) + ε * ε + 0 * 0 = ε ^ 2 by ring, Real.sqrt_sq h0.le]
  simp only [k3In, k3Out, e, if_pos h1]
  simp
  ring

/-- The hypotheses are met: a point of the plane and its polar coordinates. -/
example : k2In (k2Out (2, 1)) = (2, 1) :=
  c110_two_back_partial 2 1 (by norm_num) (by linarith [Real.pi_gt_three]) (by linarith [Real.pi_gt_three])

end Verif.Angular
