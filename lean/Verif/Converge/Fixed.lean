import Verif.Converge.Step
import Verif.Bse.PropsConverge

/-! States close to each other, and limits of states. -/
namespace Verif.Converge
open Verif.Symmetries Verif.Heredity Verif.Propagator Verif.Weak Verif.Sde MeasureTheory Filter Topology
open Verif.Invariant (VF SF)
open Verif.Spectrum (half)
open Verif.Freqs (Ch)

section
variable {u : Setup} {t d d' : ℝ} {y y' y'' : SF × VF}

/-- A bound of every difference. -/
theorem near_iff (ht : 0 < t) (hw : 0 < u.p.Gam + u.p.Lam) : Near u t d y y' ↔
    (∀ v, t / half u.p * ‖y.1.1 v - y'.1.1 v‖ ≤ d) ∧ (∀ v, t / half u.p * ‖y.1.2 v - y'.1.2 v‖ ≤ d) ∧
    ∀ h c s α ν, ‖y.2 h c s α ν - y'.2 h c s α ν‖ ≤ d := by
  have h0 : 0 < half u.p := Weak.half_pos hw
  have e : ∀ x : ℝ, x ≤ d * ((u.p.Gam + u.p.Lam) / 2) / t ↔ t / half u.p * x ≤ d := fun x => by
    rw [le_div_iff₀ ht, div_mul_eq_mul_div, div_le_iff₀ h0, mul_comm t x]
    exact Iff.rfl
  simp only [Near, NearS, NearV, e]
  constructor
  · exact fun ⟨a, b⟩ => ⟨fun v => (a v).1, fun v => (a v).2, b⟩
  · exact fun ⟨a, b, c⟩ => ⟨fun v => ⟨a v, b v⟩, c⟩

theorem near_symm (h : Near u t d y y') : Near u t d y' y :=
  ⟨fun v => ⟨by rw [norm_sub_rev]; exact (h.1 v).1, by rw [norm_sub_rev]; exact (h.1 v).2⟩,
    fun a c s α ν => by rw [norm_sub_rev]; exact h.2 a c s α ν⟩

theorem near_trans (h : Near u t d y y') (h' : Near u t d' y' y'') : Near u t (d + d') y y'' := by
  have tri : ∀ {a b c : ℂ} {x x' : ℝ}, ‖a - b‖ ≤ x → ‖b - c‖ ≤ x' → ‖a - c‖ ≤ x + x' := fun {a b c} _ _ h1 h2 => by
    have := norm_add_le (a - b) (b - c)
    rw [sub_add_sub_cancel] at this
    linarith
  refine ⟨fun v => ?_, fun a c s α ν => tri (h.2 a c s α ν) (h'.2 a c s α ν)⟩
  have e : (d + d') * ((u.p.Gam + u.p.Lam) / 2) / t = d * ((u.p.Gam + u.p.Lam) / 2) / t + d' * ((u.p.Gam + u.p.Lam) / 2) / t := by ring
  rw [e]
  exact ⟨tri (h.1 v).1 (h'.1 v).1, tri (h.1 v).2 (h'.1 v).2⟩

theorem near_nonneg (h : Near u t d y y') : 0 ≤ d := (norm_nonneg _).trans (h.2 true .a 0 (fun _ => true) 0)

theorem near_eq (ht : 0 < t) (hw : 0 < u.p.Gam + u.p.Lam) (h : ∀ ε > 0, Near u t ε y y') : y = y' := by
  have h0 : 0 < half u.p := Weak.half_pos hw
  have z : ∀ a b : ℂ, (∀ ε > 0, t / half u.p * ‖a - b‖ ≤ ε) → a = b := fun a b h => by
    have : t / half u.p * ‖a - b‖ ≤ 0 := le_of_forall_pos_le_add fun ε hε => by simpa using h ε hε
    have pos : 0 < t / half u.p := by positivity
    have : ‖a - b‖ ≤ 0 := by
      by_contra c
      push Not at c
      nlinarith [mul_pos pos c]
    exact sub_eq_zero.1 (norm_le_zero_iff.1 this)
  have z1 : ∀ a b : ℂ, (∀ ε > 0, ‖a - b‖ ≤ ε) → a = b := fun a b h =>
    sub_eq_zero.1 (norm_le_zero_iff.1 (le_of_forall_pos_le_add fun ε hε => by simpa using h ε hε))
  refine Prod.ext (Prod.ext (funext fun v => z _ _ fun ε hε => ((near_iff ht hw).1 (h ε hε)).1 v)
    (funext fun v => z _ _ fun ε hε => ((near_iff ht hw).1 (h ε hε)).2.1 v)) ?_
  funext a c s α ν
  exact z1 _ _ fun ε hε => (h ε hε).2 a c s α ν

theorem ball_near (ht : 0 < t) (hw : 0 < u.p.Gam + u.p.Lam) (h : Ball u t y) (h' : Ball u t y') : Near u t (2 * t) y y' := by
  have h0 : 0 < half u.p := Weak.half_pos hw
  have tri : ∀ {a b c : ℂ} {x x' : ℝ}, ‖a - b‖ ≤ x → ‖c - b‖ ≤ x' → ‖a - c‖ ≤ x + x' := fun {a b c} _ _ h1 h2 => by
    have := norm_sub_le (a - b) (c - b)
    rw [sub_sub_sub_cancel_right] at this
    linarith
  refine ⟨fun v => ?_, fun a c s α ν => ?_⟩
  · have e : 2 * t * ((u.p.Gam + u.p.Lam) / 2) / t = u.p.Gam + u.p.Lam := by field_simp
    rw [e]
    have a := tri (h.self v).1 (h'.self v).1
    have b := tri (h.self v).2 (h'.self v).2
    exact ⟨by linarith, by linarith⟩
  · have := norm_sub_le (y.2 a c s α ν) (y'.2 a c s α ν)
    linarith [h.vertex a c s α ν, h'.vertex a c s α ν]

/-- What one step of the iteration needs. -/
theorem two {bare : VF} (W : Weakly u bare t) (h : Ball u t y) (h' : Ball u t y') (n : Near u t d y y') :
    Two u bare t d y.1 y'.1 y.2 y'.2 := by
  have e : half u.p / 2 = (u.p.Gam + u.p.Lam) / 4 := by unfold Spectrum.half; ring
  exact ⟨W.width, W.pos, W.weak, W.measurable, W.small, h.meas.retarded, h'.meas.retarded, fun v => by rw [e]; exact (h.self v).1,
    fun v => by rw [e]; exact (h'.self v).1, h.meas.vertex, h'.meas.vertex, h.vertex, h'.vertex, fun v => (n.1 v).1, n.2⟩

theorem step_ball {bare : VF} (W : Weakly u bare t) (first : Bool) (hartree : SF → ℝ) (h : Ball u t y) :
    Ball u t (iteration first u hartree bare y) := by
  have H := two W h h (d := 2 * t) (ball_near W.pos W.width h h)
  have e : half u.p / 2 = (u.p.Gam + u.p.Lam) / 4 := by unfold Spectrum.half; ring
  refine ⟨⟨?_, ?_, H.bse_meas⟩, fun v => ?_, H.bse_small⟩
  · exact (H.dynamic_meas W.ph first).1.add_const _
  · exact (H.dynamic_meas W.ph first).2
  · have := H.dynamic_small W.ph first v
    rw [e] at this
    simp only [iteration, computeSDE, shift, W.ph, if_true, add_sub_cancel_right]
    have a := this.1
    have b := this.2
    simp only [Prod.fst_zero, Prod.snd_zero, Pi.zero_apply, sub_zero] at a b ⊢
    exact ⟨a, b⟩

theorem step_near {bare : VF} (W : Weakly u bare t) (first : Bool) (hartree : SF → ℝ) (h : Ball u t y) (h' : Ball u t y') (n : Near u t d y y') :
    Near u t (d / 2) (iteration first u hartree bare y) (iteration first u hartree bare y') := by
  have H := two W h h' n
  refine ⟨fun v => ?_, H.bse_near⟩
  have := H.dynamic_close W.ph first v
  simp only [iteration, computeSDE, shift, W.ph, if_true, add_sub_add_right_eq_sub]
  exact this

/-! ### Limits -/

theorem geom {z : ℕ → ℂ} {K : ℝ} (h : ∀ n, ‖z n - z (n + 1)‖ ≤ K / 2 / 2 ^ n) : ∃ a, Tendsto z atTop (𝓝 a) ∧ ∀ n, ‖z n - a‖ ≤ K / 2 ^ n := by
  have h' : ∀ n, dist (z n) (z (n + 1)) ≤ K / 2 / 2 ^ n := fun n => by rw [dist_eq_norm]; exact h n
  obtain ⟨a, ha⟩ := cauchySeq_tendsto_of_complete (cauchySeq_of_le_geometric_two h')
  exact ⟨a, ha, fun n => by rw [← dist_eq_norm]; exact dist_le_of_le_geometric_two_of_tendsto h' ha n⟩

/-- A sequence of states that comes closer by a factor of two in every step has a limit. -/
theorem limit_exists {x : ℕ → SF × VF} {K : ℝ} (hx : ∀ n, Ball u t (x n))
    (h : ∀ n, Near u t (K / 2 / 2 ^ n) (x n) (x (n + 1))) : ∃ y, Ball u t y ∧ (∀ n, Near u t (K / 2 ^ n) (x n) y) ∧
      (∀ v, Tendsto (fun n => (x n).1.1 v) atTop (𝓝 (y.1.1 v))) ∧ (∀ v, Tendsto (fun n => (x n).1.2 v) atTop (𝓝 (y.1.2 v))) ∧
      ∀ a c s α ν, Tendsto (fun n => (x n).2 a c s α ν) atTop (𝓝 (y.2 a c s α ν)) := by
  have e : ∀ n : ℕ, K / 2 / 2 ^ n * ((u.p.Gam + u.p.Lam) / 2) / t = K * ((u.p.Gam + u.p.Lam) / 2) / t / 2 / 2 ^ n := fun n => by ring
  have e' : ∀ n : ℕ, K * ((u.p.Gam + u.p.Lam) / 2) / t / 2 ^ n = K / 2 ^ n * ((u.p.Gam + u.p.Lam) / 2) / t := fun n => by ring
  choose r r1 r2 using fun v => geom fun n => (e n) ▸ ((h n).1 v).1
  choose k k1 k2 using fun v => geom fun n => (e n) ▸ ((h n).1 v).2
  choose w w1 w2 using fun a c s α ν => geom fun n => (h n).2 a c s α ν
  have close : ∀ {z : ℕ → ℂ} {a b : ℂ} {C : ℝ}, Tendsto z atTop (𝓝 a) → (∀ n, ‖z n - b‖ ≤ C) → ‖a - b‖ ≤ C := fun {z a b C} hz hb =>
    le_of_tendsto ((hz.sub_const b).norm) (Eventually.of_forall hb)
  refine ⟨((r, k), w), ⟨⟨?_, ?_, fun a c s α => ?_⟩, fun v => ?_, fun a c s α ν => ?_⟩, fun n => ⟨fun v => ?_, fun a c s α ν => w2 a c s α ν n⟩, r1, k1, w1⟩
  · exact measurable_of_tendsto_metrizable (fun n => (hx n).meas.retarded) (tendsto_pi_nhds.2 r1)
  · exact measurable_of_tendsto_metrizable (fun n => (hx n).meas.keldysh) (tendsto_pi_nhds.2 k1)
  · exact measurable_of_tendsto_metrizable (fun n => (hx n).meas.vertex a c s α) (tendsto_pi_nhds.2 (w1 a c s α))
  · exact ⟨close (r1 v) fun n => ((hx n).self v).1, close (k1 v) fun n => ((hx n).self v).2⟩
  · have := close (b := 0) (w1 a c s α ν) (C := t) fun n => by rw [sub_zero]; exact (hx n).vertex a c s α ν
    rwa [sub_zero] at this
  · have a := r2 v n
    have b := k2 v n
    rw [e'] at a b
    exact ⟨a, b⟩

end

/-! ### Mixing -/

section
variable {u : Setup} {t d : ℝ} {y y' : SF × VF}

theorem mix_norm {m : ℝ} (h0 : 0 ≤ m) (h1 : m ≤ 1) {a b a' b' : ℂ} {A B : ℝ} (ha : ‖a - a'‖ ≤ A) (hb : ‖b - b'‖ ≤ B) :
    ‖m • a + (1 - m) • b - (m • a' + (1 - m) • b')‖ ≤ m * A + (1 - m) * B := by
  have e : m • a + (1 - m) • b - (m • a' + (1 - m) • b') = m • (a - a') + (1 - m) • (b - b') := by module
  rw [e]
  refine (norm_add_le _ _).trans ?_
  rw [norm_smul, norm_smul, Real.norm_of_nonneg h0, Real.norm_of_nonneg (by linarith)]
  have := mul_le_mul_of_nonneg_left ha h0
  have := mul_le_mul_of_nonneg_left hb (show 0 ≤ 1 - m by linarith)
  linarith

theorem mixed_ball {f : SF × VF → SF × VF} {m : ℝ} (h0 : 0 ≤ m) (h1 : m ≤ 1) (h : Ball u t y) (hf : Ball u t (f y)) : Ball u t (mixed f m y) := by
  have s : ∀ {a b c : ℂ} {C : ℝ}, ‖a - c‖ ≤ C → ‖b - c‖ ≤ C → ‖m • a + (1 - m) • b - c‖ ≤ C := fun {a b c C} ha hb => by
    have := mix_norm h0 h1 ha hb
    have e : m • c + (1 - m) • c = c := by module
    rw [e] at this
    linarith
  refine ⟨⟨?_, ?_, fun a c s α => ?_⟩, fun v => ⟨s (hf.self v).1 (h.self v).1, s (hf.self v).2 (h.self v).2⟩, fun a c σ α ν => ?_⟩
  · exact (hf.meas.retarded.const_smul m).add (h.meas.retarded.const_smul (1 - m))
  · exact (hf.meas.keldysh.const_smul m).add (h.meas.keldysh.const_smul (1 - m))
  · exact ((hf.meas.vertex a c s α).const_smul m).add ((h.meas.vertex a c s α).const_smul (1 - m))
  · have := s (c := 0) (C := t) (by rw [sub_zero]; exact hf.vertex a c σ α ν) (by rw [sub_zero]; exact h.vertex a c σ α ν)
    rwa [sub_zero] at this

theorem mixed_near {f : SF × VF → SF × VF} {m : ℝ} (h0 : 0 ≤ m) (h1 : m ≤ 1) (n : Near u t d y y') (nf : Near u t (d / 2) (f y) (f y')) :
    Near u t ((1 - m / 2) * d) (mixed f m y) (mixed f m y') := by
  refine ⟨fun v => ?_, fun a c s α ν => ?_⟩
  · have e : (1 - m / 2) * d * ((u.p.Gam + u.p.Lam) / 2) / t = m * (d / 2 * ((u.p.Gam + u.p.Lam) / 2) / t) + (1 - m) * (d * ((u.p.Gam + u.p.Lam) / 2) / t) := by ring
    rw [e]
    exact ⟨mix_norm h0 h1 (nf.1 v).1 (n.1 v).1, mix_norm h0 h1 (nf.1 v).2 (n.1 v).2⟩
  · have e : (1 - m / 2) * d = m * (d / 2) + (1 - m) * d := by ring
    rw [e]
    exact mix_norm h0 h1 (nf.2 a c s α ν) (n.2 a c s α ν)

end

end Verif.Converge
