import Verif.Chains.Smooth
import Verif.Weak.Lemmas

/-! The propagators of the code. -/
namespace Verif.Chains
open Verif.Heredity Verif.Invariant Verif.Propagator MeasureTheory Filter Topology
open Verif.Freqs (Ch)
open Verif.Spectrum (half)
open Verif.Causal (damped_of)

/-- The distribution factor. -/
noncomputable def fac (p : Par) (x : ℝ) : ℝ := effFac true x p.T p.mu 0

theorem fac_le (p : Par) (x : ℝ) : |fac p x| ≤ 1 := by
  rw [fac, effFac, if_pos rfl, fermiFac]
  exact (Real.abs_tanh_lt_one _).le

theorem fac_continuous (p : Par) : Continuous (fac p) := by
  have : fac p = fun x => Real.tanh ((x - p.mu) / (2 * p.T)) := by
    funext x; rw [fac, effFac, if_pos rfl, fermiFac]
  rw [this]
  simp only [Real.tanh_eq_sinh_div_cosh]
  exact (Real.continuous_sinh.comp (by fun_prop)).div (Real.continuous_cosh.comp (by fun_prop)) fun x => (Real.cosh_pos _).ne'

/-- The retarded propagator. -/
noncomputable def ret (p : Par) (σ : SF) (x : ℝ) : ℂ := (lineG p σ.at x).gr

/-- Its derivative. -/
noncomputable def dret (p : Par) (σ dσ : SF) (x : ℝ) : ℂ := (lineS p σ.at dσ.at x).gr

theorem dret_eq (p : Par) (σ dσ : SF) (x : ℝ) : dret p σ dσ x = -(Complex.I / 2 - dσ.1 x) * ret p σ x ^ 2 := by
  simp only [dret, ret, lineS, lineG, sR, sR2, katR, gR, SF.at]
  ring

theorem pair_eq (p : Par) (σ : SF) : Invariant.pair p σ = product (fac p) (ret p σ) (ret p σ) := by
  have e : ∀ x a b, comp (lineG p σ.at x) a b = lam (fac p x) a b (ret p σ x) := fun x a b => by
    cases a <;> cases b <;> rfl
  funext a b c d y z
  show comp (lineG p σ.at y) a c * comp (lineG p σ.at z) b d = _
  rw [e, e]; rfl

theorem dpair_eq (p : Par) (σ dσ : SF) (h : ∀ v, dσ.2 v = Complex.I * (effFac true v p.T p.mu 0 * 2 * (dσ.1 v).im : ℝ)) :
    Invariant.dpair p σ dσ = product (fac p) (ret p σ) (dret p σ dσ) + product (fac p) (dret p σ dσ) (ret p σ) := by
  have e : ∀ x a b, comp (lineG p σ.at x) a b = lam (fac p x) a b (ret p σ x) := fun x a b => by
    cases a <;> cases b <;> rfl
  have e' : ∀ x a b, comp (lineS p σ.at dσ.at x) a b = lam (fac p x) a b (dret p σ dσ x) := fun x a b => by
    cases a <;> cases b
    · rfl
    · rfl
    · rfl
    · show sKeq .hyb (fac p x) { p with v := x } (σ.at x) + katK .hyb (lineG p σ.at x).gk { p with v := x } (σ.at x) (dσ.at x) =
        Complex.I * (fac p x * 2 * (sR .hyb { p with v := x } (σ.at x) + katR .hyb { p with v := x } (σ.at x) (dσ.at x)).im : ℝ)
      have hk : (dσ.at x).K = Complex.I * (fac p x * 2 * ((dσ.at x).R).im : ℝ) := h x
      have hg : (lineG p σ.at x).gk = Complex.I * (fac p x * 2 * (gR .hyb { p with v := x } (σ.at x)).im : ℝ) := rfl
      rw [katK, katR, sKeq, hk, hg]
      generalize gR .hyb { p with v := x } (σ.at x) = g
      generalize (dσ.at x).R = d
      generalize sR .hyb { p with v := x } (σ.at x) = s
      apply Complex.ext <;> simp <;> ring
  funext a b c d y z
  show comp (lineG p σ.at y) a c * comp (lineS p σ.at dσ.at z) b d + comp (lineS p σ.at dσ.at y) a c * comp (lineG p σ.at z) b d = _
  rw [e, e, e', e']; rfl

section
variable {p : Par} {σ : SF} (hp : 0 < p.Gam + p.Lam) (h : RetardedSE σ.1)

/-- The denominator of the propagator. -/
noncomputable def den (p : Par) (σ : SF) (x : ℝ) : ℂ := (x - p.eps : ℝ) + Complex.I * half p - σ.1 x

theorem ret_den (x : ℝ) : ret p σ x = 1 / den p σ x := Spectrum.gr_eq x

include h in
theorem retarded_continuous : Continuous σ.1 := by
  obtain ⟨F, C, h1, _, h3, _⟩ := h
  have e : σ.1 = fun x : ℝ => F x := funext fun x => (h3 x).symm
  rw [e]
  exact h1.comp_continuous Complex.continuous_ofReal fun x => by simp

include hp h

theorem den_ne (x : ℝ) : den p σ x ≠ 0 := by
  have hd := Weak.half_pos hp
  have hi : (σ.1 x).im ≤ 0 := (damped_of h).im x
  intro e
  have := congrArg Complex.im e
  simp [den] at this
  linarith

theorem ret_continuous : Continuous (ret p σ) := by
  have e : ret p σ = fun x => 1 / den p σ x := funext fun x => ret_den x
  rw [e]
  refine continuous_const.div ?_ fun x => den_ne hp h x
  have := retarded_continuous h
  unfold den
  fun_prop

theorem ret_sup (x : ℝ) : ‖ret p σ x‖ ≤ 1 / half p := Weak.gr_sup hp h x

/-- The modulus of the retarded propagator as weight. -/
theorem weight : Weight (Real.pi / half p) fun x => ‖ret p σ x‖ := by
  have hd := Weak.half_pos hp
  obtain ⟨C, hC⟩ := ((damped_of h).decays hp).bound
  refine ⟨fun x => norm_nonneg _, (ret_continuous hp h).norm, ⟨C, fun x => (hC x).1⟩, ?_⟩
  obtain ⟨i, t⟩ := Weak.dos_int hp h
  refine (integral_mono_of_nonneg (Eventually.of_forall fun x => sq_nonneg _) (i.div_const (2 * half p)) (Eventually.of_forall fun x => Weak.gr_sq hp h x)).trans (le_of_eq ?_)
  rw [integral_div, t]
  field_simp

theorem pairs : Pairs (2 / half p) (Invariant.pair p σ) := by
  have hd := Weak.half_pos hp
  have pi0 := Real.pi_pos
  rw [pair_eq]
  have b := product_below (fac_continuous p) (fac_le p) (ret_continuous hp h) (ret_continuous hp h) (m := fun x => ‖ret p σ x‖)
    (A := 1) (B := 1) (fun x => norm_nonneg _) one_pos.le (fun x => by rw [one_mul]) (fun x => by rw [one_mul])
  have := b.pairs (weight hp h) (by norm_num)
  rwa [show (4 * 1 * 1 : ℝ) * (Real.pi / half p) / (2 * Real.pi) = 2 / half p by field_simp; norm_num] at this

end

section
variable {p : Par} {J : Set ℝ} {σ dσ : ℝ → SF} (F : SelfFamily p J σ dσ)
include F

theorem smooth {l : ℝ} (hl : l ∈ J) : Smooth (fun x => ‖ret (scale p l) (σ l) x‖) (fun l => ret (scale p l) (σ l)) (fun l => dret (scale p l) (σ l) (dσ l)) l := by
  have hpl : 0 < (scale p l).Gam + (scale p l).Lam := F.pos l hl
  set H : ℝ := half (scale p l) with hH
  have H0 : 0 < H := Weak.half_pos hpl
  obtain ⟨B, hB⟩ := F.dbound l hl
  have B0 : 0 ≤ B := (norm_nonneg _).trans (hB 0)
  set G : ℝ := 2 / H with hG
  have G0 : 0 < G := by positivity
  have inJ : ∀ᶠ l' in 𝓝 l, l' ∈ J := F.isOpen.mem_nhds hl
  have hH' : ∀ᶠ l' in 𝓝 l, H / 2 < half (scale p l') := by
    have : ContinuousAt (fun l' => half (scale p l')) l := by
      have e : (fun l' => half (scale p l')) = fun l' => (p.Gam + l') / 2 := rfl
      rw [e]; fun_prop
    exact continuousAt_const.eventually_lt this (by rw [← hH]; linarith)
  have near1 : ∀ δ > 0, ∀ᶠ l' in 𝓝 l, |l' - l| < δ := fun δ δ0 => by
    have : ContinuousAt (fun l' => |l' - l|) l := by fun_prop
    exact this.eventually_lt continuousAt_const (by simpa using δ0)
  have dn : ∀ d : ℂ, ‖d‖ ≤ B + 1 → ‖Complex.I / 2 - d‖ ≤ B + 2 := fun d hd => by
    refine (norm_sub_le _ _).trans ?_
    have : ‖Complex.I / 2‖ = 1 / 2 := by simp
    linarith
  -- the propagators near `l`
  have basic : ∀ᶠ l' in 𝓝 l, (∀ x, ‖ret (scale p l') (σ l') x‖ ≤ G) ∧ (∀ x, ‖(dσ l').1 x‖ ≤ B + 1) ∧
      (∀ x, den (scale p l') (σ l') x ≠ 0) := by
    filter_upwards [inJ, hH', F.cont l hl 1 one_pos] with l' h1 h2 h3
    refine ⟨fun x => ?_, fun x => ?_, fun x => den_ne (F.pos l' h1) (F.retarded l' h1) x⟩
    · refine (ret_sup (p := scale p l') (F.pos l' h1) (F.retarded l' h1) x).trans ?_
      rw [hG, div_le_div_iff₀ (by linarith) H0]
      linarith
    · have e : (dσ l').1 x = ((dσ l').1 x - (dσ l).1 x) + (dσ l).1 x := by ring
      rw [e]
      exact (norm_add_le _ _).trans (by linarith [h3 x, hB x])
  have b0 := basic.self_of_nhds
  -- the difference of the denominators
  have dq : ∀ l' x, den (scale p l') (σ l') x - den (scale p l) (σ l) x = (l' - l : ℝ) * (Complex.I / 2 - (dσ l).1 x) -
      ((σ l').1 x - (σ l).1 x - (l' - l : ℝ) * (dσ l).1 x) := fun l' x => by
    simp only [den, half, scale]
    push_cast; ring
  have quot : ∀ᶠ l' in 𝓝 l, (∀ x, ret (scale p l') (σ l') x - ret (scale p l) (σ l) x =
      -(den (scale p l') (σ l') x - den (scale p l) (σ l) x) * ret (scale p l) (σ l) x * ret (scale p l') (σ l') x) ∧
      ∀ x, ‖den (scale p l') (σ l') x - den (scale p l) (σ l) x‖ ≤ |l' - l| * (B + 3) := by
    filter_upwards [basic, F.deriv l hl 1 one_pos] with l' h1 h2
    refine ⟨fun x => ?_, fun x => ?_⟩
    · have n1 := h1.2.2 x
      have n0 := b0.2.2 x
      rw [ret_den, ret_den]
      field_simp
      ring
    · rw [dq]
      refine (norm_sub_le _ _).trans ?_
      rw [norm_mul, Complex.norm_real, Real.norm_eq_abs]
      have := mul_le_mul_of_nonneg_left (dn _ (b0.2.1 x)) (abs_nonneg (l' - l))
      have := h2 x
      linarith
  have diff : ∀ᶠ l' in 𝓝 l, ∀ x, ‖ret (scale p l') (σ l') x - ret (scale p l) (σ l) x‖ ≤ |l' - l| * (B + 3) * G * ‖ret (scale p l) (σ l) x‖ := by
    filter_upwards [quot, basic] with l' h1 h2 x
    rw [h1.1 x, norm_mul, norm_mul, norm_neg]
    have := h1.2 x
    have := h2.1 x
    calc _ ≤ |l' - l| * (B + 3) * ‖ret (scale p l) (σ l) x‖ * G := by gcongr
      _ = _ := by ring
  have size : ∀ᶠ l' in 𝓝 l, ∀ x, ‖ret (scale p l') (σ l') x‖ ≤ (1 + (B + 3) * G) * ‖ret (scale p l) (σ l) x‖ := by
    filter_upwards [diff, near1 1 one_pos] with l' h1 h2 x
    have e : ret (scale p l') (σ l') x = (ret (scale p l') (σ l') x - ret (scale p l) (σ l) x) + ret (scale p l) (σ l) x := by ring
    rw [e]
    refine (norm_add_le _ _).trans ?_
    have : |l' - l| * ((B + 3) * G * ‖ret (scale p l) (σ l) x‖) ≤ 1 * ((B + 3) * G * ‖ret (scale p l) (σ l) x‖) := by gcongr
    linarith [h1 x]
  set A : ℝ := 1 + (B + 3) * G with hA
  have A1 : 1 ≤ A := by
    have : 0 ≤ (B + 3) * G := by positivity
    linarith
  refine ⟨⟨A + (B + 2) * G * A, by positivity, ?_⟩, fun ε ε0 => ?_, fun ε ε0 => ?_⟩
  · filter_upwards [size, basic] with l' h1 h2
    refine ⟨fun x => (h1 x).trans ?_, fun x => ?_⟩
    · have := norm_nonneg (ret (scale p l) (σ l) x)
      have : 0 ≤ (B + 2) * G * A * ‖ret (scale p l) (σ l) x‖ := by positivity
      linarith
    · rw [dret_eq, norm_mul, norm_neg, sq, norm_mul]
      have := dn _ (h2.2.1 x)
      have := h2.1 x
      have := h1 x
      have h0 := norm_nonneg (ret (scale p l) (σ l) x)
      calc ‖Complex.I / 2 - (dσ l').1 x‖ * (‖ret (scale p l') (σ l') x‖ * ‖ret (scale p l') (σ l') x‖)
          ≤ (B + 2) * (G * (A * ‖ret (scale p l) (σ l) x‖)) := by gcongr
        _ ≤ (A + (B + 2) * G * A) * ‖ret (scale p l) (σ l) x‖ := by
          have : 0 ≤ A * ‖ret (scale p l) (σ l) x‖ := by positivity
          linarith
  · set δ : ℝ := ε / (2 * G) with hδ
    have δ0 : 0 < δ := by positivity
    filter_upwards [F.deriv l hl δ δ0, quot, diff, basic, near1 (ε / (2 * ((B + 2) * ((B + 3) * G) * G))) (by positivity)] with l' h1 h2 h3 h4 h5 x
    have e : ret (scale p l') (σ l') x - ret (scale p l) (σ l) x - (l' - l : ℝ) * dret (scale p l) (σ l) (dσ l) x =
        ((σ l').1 x - (σ l).1 x - (l' - l : ℝ) * (dσ l).1 x) * ret (scale p l) (σ l) x * ret (scale p l') (σ l') x -
        (l' - l : ℝ) * (Complex.I / 2 - (dσ l).1 x) * ret (scale p l) (σ l) x * (ret (scale p l') (σ l') x - ret (scale p l) (σ l) x) := by
      rw [dret_eq]
      conv_lhs => rw [h2.1 x, dq]
      ring
    rw [e]
    refine (norm_sub_le _ _).trans ?_
    simp only [norm_mul, Complex.norm_real, Real.norm_eq_abs]
    have m0 := norm_nonneg (ret (scale p l) (σ l) x)
    have a0 := abs_nonneg (l' - l)
    have p1 : ‖(σ l').1 x - (σ l).1 x - (l' - l : ℝ) * (dσ l).1 x‖ * ‖ret (scale p l) (σ l) x‖ * ‖ret (scale p l') (σ l') x‖ ≤
        δ * |l' - l| * ‖ret (scale p l) (σ l) x‖ * G := by
      have := h1 x
      have := h4.1 x
      gcongr
    have p2 : |l' - l| * ‖Complex.I / 2 - (dσ l).1 x‖ * ‖ret (scale p l) (σ l) x‖ * ‖ret (scale p l') (σ l') x - ret (scale p l) (σ l) x‖ ≤
        |l' - l| * (B + 2) * ‖ret (scale p l) (σ l) x‖ * (|l' - l| * (B + 3) * G * G) := by
      have a1 := dn _ (b0.2.1 x)
      have a2 : ‖ret (scale p l') (σ l') x - ret (scale p l) (σ l) x‖ ≤ |l' - l| * (B + 3) * G * G :=
        (h3 x).trans (by have := b0.1 x; gcongr)
      gcongr
    have k1 : δ * G = ε / 2 := by rw [hδ]; field_simp
    have k2 : |l' - l| * ((B + 2) * ((B + 3) * G) * G) ≤ ε / 2 := by
      have := mul_le_mul_of_nonneg_right h5.le (by positivity : 0 ≤ (B + 2) * ((B + 3) * G) * G)
      refine this.trans (le_of_eq ?_)
      field_simp
    have k3 := mul_le_mul_of_nonneg_right k2 (mul_nonneg a0 m0)
    have k4 : δ * |l' - l| * ‖ret (scale p l) (σ l) x‖ * G = ε / 2 * (|l' - l| * ‖ret (scale p l) (σ l) x‖) := by rw [← k1]; ring
    linarith
  · set δ : ℝ := ε / (2 * (G * A)) with hδ
    have δ0 : 0 < δ := by positivity
    filter_upwards [F.cont l hl δ δ0, diff, basic, size, near1 (ε / (2 * ((B + 2) * (2 * G) * ((B + 3) * G)))) (by positivity)] with l' h1 h2 h3 h4 h5 x
    have e : dret (scale p l') (σ l') (dσ l') x - dret (scale p l) (σ l) (dσ l) x =
        ((dσ l').1 x - (dσ l).1 x) * ret (scale p l') (σ l') x * ret (scale p l') (σ l') x -
        (Complex.I / 2 - (dσ l).1 x) * (ret (scale p l') (σ l') x + ret (scale p l) (σ l) x) * (ret (scale p l') (σ l') x - ret (scale p l) (σ l) x) := by
      rw [dret_eq, dret_eq]; ring
    rw [e]
    refine (norm_sub_le _ _).trans ?_
    simp only [norm_mul]
    have m0 := norm_nonneg (ret (scale p l) (σ l) x)
    have p1 : ‖(dσ l').1 x - (dσ l).1 x‖ * ‖ret (scale p l') (σ l') x‖ * ‖ret (scale p l') (σ l') x‖ ≤ δ * G * (A * ‖ret (scale p l) (σ l) x‖) := by
      have := h1 x
      have := h3.1 x
      have := h4 x
      gcongr
    have p2 : ‖Complex.I / 2 - (dσ l).1 x‖ * ‖ret (scale p l') (σ l') x + ret (scale p l) (σ l) x‖ * ‖ret (scale p l') (σ l') x - ret (scale p l) (σ l) x‖ ≤
        (B + 2) * (2 * G) * (|l' - l| * (B + 3) * G * ‖ret (scale p l) (σ l) x‖) := by
      have a1 := dn _ (b0.2.1 x)
      have a2 : ‖ret (scale p l') (σ l') x + ret (scale p l) (σ l) x‖ ≤ 2 * G := (norm_add_le _ _).trans (by linarith [h3.1 x, b0.1 x])
      have a3 := h2 x
      gcongr
    have k1 : δ * G * A = ε / 2 := by rw [hδ]; field_simp
    have k2 : |l' - l| * ((B + 2) * (2 * G) * ((B + 3) * G)) ≤ ε / 2 := by
      have := mul_le_mul_of_nonneg_right h5.le (by positivity : 0 ≤ (B + 2) * (2 * G) * ((B + 3) * G))
      refine this.trans (le_of_eq ?_)
      field_simp
    have k3 := mul_le_mul_of_nonneg_right k2 m0
    have k4 : δ * G * (A * ‖ret (scale p l) (σ l) x‖) = ε / 2 * ‖ret (scale p l) (σ l) x‖ := by rw [← k1]; ring
    linarith

end

end Verif.Chains
