import Verif.Spectrum.Lemmas
import Verif.Pt2.PropsVertex
import Verif.Pt2.PropsSelf
import Verif.Weak.Spec
import Mathlib.Analysis.SpecialFunctions.JapaneseBracket

/-! Bounds of the diagrams of second order. -/
namespace Verif.Weak
open Verif.Symmetries Verif.Heredity Verif.Propagator Verif.Invariant Verif.Sde.Limit Verif.Sde Verif.Pt2 Verif.Thermal Verif.Causal MeasureTheory Filter Topology
open Verif.Spectrum (half)
open Verif.Freqs (Ch)

variable {p : Par} {σ : SF} {w : ℝ}

/-! ### Lines -/

/-- Twice the modulus of the imaginary part: bounds the Keldysh component. -/
noncomputable def dos (p : Par) (σ : SF) (x : ℝ) : ℝ := -2 * ((lineG p σ.at x).gr).im

theorem half_pos (hp : 0 < p.Gam + p.Lam) : 0 < half p := by unfold half; positivity

theorem gr_sq (hp : 0 < p.Gam + p.Lam) (h : RetardedSE σ.1) (x : ℝ) : ‖(lineG p σ.at x).gr‖ ^ 2 ≤ dos p σ x / (2 * half p) := by
  have hd := half_pos hp
  have hi : (σ.1 x).im ≤ 0 := (damped_of h).im x
  rw [dos, Spectrum.gr_eq]
  set D : ℂ := ((x - p.eps : ℝ) : ℂ) + Complex.I * half p - (σ.at x).R with hD
  have im : half p ≤ D.im := by
    have : D.im = half p - (σ.1 x).im := by simp [hD, SF.at]
    rw [this]; linarith
  have ns : 0 < Complex.normSq D := Complex.normSq_pos.2 fun h => by rw [h] at im; simp at im; linarith
  rw [one_div, norm_inv, inv_pow, Complex.inv_im, ← Complex.normSq_eq_norm_sq]
  rw [le_div_iff₀ (by positivity), inv_mul_eq_div, neg_div, mul_neg, neg_mul, neg_neg, ← mul_div_assoc]
  gcongr

theorem dos_nonneg (hp : 0 < p.Gam + p.Lam) (h : RetardedSE σ.1) (x : ℝ) : 0 ≤ dos p σ x := by
  have := line_im hp (damped_of h) x
  unfold dos; linarith

theorem gr_sup (hp : 0 < p.Gam + p.Lam) (h : RetardedSE σ.1) (x : ℝ) : ‖(lineG p σ.at x).gr‖ ≤ 1 / half p := by
  have hd := half_pos hp
  have a := gr_sq hp h x
  have b : dos p σ x ≤ 2 * ‖(lineG p σ.at x).gr‖ := by
    have := Complex.abs_im_le_norm (lineG p σ.at x).gr
    have := neg_le_abs ((lineG p σ.at x).gr).im
    unfold dos; linarith
  have c : ‖(lineG p σ.at x).gr‖ ^ 2 ≤ ‖(lineG p σ.at x).gr‖ / half p := by
    refine a.trans ?_
    rw [div_le_div_iff₀ (by positivity) hd]
    nlinarith
  rcases (norm_nonneg (lineG p σ.at x).gr).eq_or_lt with h0 | h0
  · rw [← h0]; positivity
  · rw [pow_two, le_div_iff₀ hd, mul_assoc] at c
    rw [le_div_iff₀ hd]
    exact le_of_mul_le_mul_left (by linarith) h0

theorem gk_le (hp : 0 < p.Gam + p.Lam) (h : RetardedSE σ.1) (x : ℝ) : ‖(lineG p σ.at x).gk‖ ≤ dos p σ x := by
  have d := distr hp (damped_of h)
  rw [d.gk x, norm_mul, Complex.norm_real]
  have e : (lineG p σ.at x).gr - star (lineG p σ.at x).gr = Complex.I * ((2 * ((lineG p σ.at x).gr).im : ℝ) : ℂ) := by
    apply Complex.ext <;> simp <;> ring
  rw [e, norm_mul, Complex.norm_I, one_mul, Complex.norm_real, Real.norm_eq_abs, Real.norm_eq_abs,
    abs_of_nonpos (a := 2 * ((lineG p σ.at x).gr).im) (by linarith [d.im x])]
  have : |Real.tanh ((x - p.mu) / (2 * p.T))| ≤ 1 := abs_le.2 ⟨d.low x, d.high x⟩
  have := mul_le_mul_of_nonneg_right this (dos_nonneg hp h x)
  unfold dos at *
  linarith

theorem dif_eq (x : ℝ) (hp : 0 < p.Gam + p.Lam) (h : RetardedSE σ.1) : ‖(lineG p σ.at x).gr - star (lineG p σ.at x).gr‖ = dos p σ x := by
  have e : (lineG p σ.at x).gr - star (lineG p σ.at x).gr = Complex.I * ((2 * ((lineG p σ.at x).gr).im : ℝ) : ℂ) := by
    apply Complex.ext <;> simp <;> ring
  have d := distr hp (damped_of h)
  rw [e, norm_mul, Complex.norm_I, one_mul, Complex.norm_real, Real.norm_eq_abs, abs_of_nonpos (by linarith [d.im x])]
  unfold dos; ring

theorem dos_int (hp : 0 < p.Gam + p.Lam) (h : RetardedSE σ.1) : Integrable (dos p σ) ∧ ∫ x, dos p σ x = 2 * Real.pi := by
  obtain ⟨i, t⟩ := Spectrum.total (p := p) (σ := σ.at) h hp
  have hpi := Real.pi_ne_zero
  have e : dos p σ = fun x => 2 * Real.pi * Spectrum.integrand .hyb p σ.at x := by
    funext x
    rw [Spectrum.integrand_eq, dos]
    field_simp
  rw [e]
  exact ⟨i.const_mul _, by rw [integral_const_mul, t, mul_one]⟩

/-! ### Bounds of the integrals over two frequencies -/

section
variable {f g h : ℝ → ℂ} {a : ℝ → ℝ × ℝ → ℝ} {d : ℝ × ℝ → ℝ} {b : ℝ → ℝ} {c : ℝ} (hb : Integrable b) (hfc : ∀ x, ‖f x‖ ≤ c)
  (hgb : ∀ x, ‖g x‖ ≤ b x) (hhb : ∀ x, ‖h x‖ ≤ b x)
include hfc hgb hhb

theorem point (v : ℝ) (q : ℝ × ℝ) : ‖f (a v q) * g q.2 * h q.1‖ ≤ c * (b q.1 * b q.2) := by
  have c0 : 0 ≤ c := (norm_nonneg _).trans (hfc 0)
  rw [norm_mul, norm_mul, mul_assoc, mul_comm (b q.1)]
  have := hfc (a v q)
  have := hgb q.2
  have := hhb q.1
  have := norm_nonneg (g q.2)
  gcongr
  linarith

include hb

theorem double_le (v : ℝ) : ‖∫ q : ℝ × ℝ, f (a v q) * g q.2 * h q.1‖ ≤ c * (∫ x, b x) ^ 2 := by
  have ib : Integrable (fun q : ℝ × ℝ => c * (b q.1 * b q.2)) := (hb.mul_prod hb).const_mul c
  refine (norm_integral_le_of_norm_le ib (Eventually.of_forall fun q => point hfc hgb hhb v q)).trans (le_of_eq ?_)
  rw [integral_const_mul]
  refine congrArg (c * ·) ((integral_prod_mul b b).trans ?_)
  ring

theorem double_vanish (hf : Falls f) (hm : ∀ v, AEStronglyMeasurable fun q : ℝ × ℝ => f (a v q) * g q.2 * h q.1) (hd : ∀ v q, |v| - |d q| ≤ |a v q|)
    {l : Filter ℝ} [l.IsCountablyGenerated] (hl : Tendsto (fun v : ℝ => |v|) l atTop) :
    Tendsto (fun v => ∫ q : ℝ × ℝ, f (a v q) * g q.2 * h q.1) l (𝓝 0) := by
  have ib : Integrable (fun q : ℝ × ℝ => c * (b q.1 * b q.2)) := (hb.mul_prod hb).const_mul c
  rw [show (0 : ℂ) = ∫ _ : ℝ × ℝ, (0 : ℂ) by simp]
  refine tendsto_integral_filter_of_dominated_convergence (fun q => c * (b q.1 * b q.2)) (Eventually.of_forall hm)
    (Eventually.of_forall fun v => Eventually.of_forall fun q => point hfc hgb hhb v q) ib (Eventually.of_forall fun q => ?_)
  have t : Tendsto (fun v => f (a v q)) l (𝓝 0) := by
    obtain ⟨M, M0, hM⟩ := hf.bound
    rw [tendsto_zero_iff_norm_tendsto_zero]
    have u : Tendsto (fun v : ℝ => 1 + (|v| - |d q|)) l atTop :=
      tendsto_atTop_add_const_left _ _ (tendsto_atTop_add_const_right _ _ hl)
    have z : Tendsto (fun v : ℝ => M * (1 + (|v| - |d q|))⁻¹) l (𝓝 0) := by simpa using (tendsto_inv_atTop_zero.comp u).const_mul M
    refine squeeze_zero' (Eventually.of_forall fun _ => norm_nonneg _) ?_ z
    filter_upwards [u.eventually_gt_atTop 0] with v hv
    refine (hM _).trans ?_
    have := hd v q
    rw [Real.norm_eq_abs]
    gcongr
  simpa using (t.mul_const (g q.2)).mul_const (h q.1)
end

section
variable {f g h : ℝ → ℂ} (hf : Falls f) (hg : Falls g) (hh : Falls h) {b : ℝ → ℝ} {c : ℝ} (hb : Integrable b)
include hf hg hh hb

theorem tri_first (hfc : ∀ x, ‖f x‖ ≤ c) (hgb : ∀ x, ‖g x‖ ≤ b x) (hhb : ∀ x, ‖h x‖ ≤ b x) : (∀ v, ‖tri f g h v‖ ≤ c * (∫ x, b x) ^ 2) ∧
    ∀ (l : Filter ℝ) [l.IsCountablyGenerated], Tendsto (fun v : ℝ => |v|) l atTop → Tendsto (tri f g h) l (𝓝 0) := by
  have e : tri f g h = fun v => ∫ q : ℝ × ℝ, f (v + q.1 - q.2) * g q.2 * h q.1 := funext fun v => (tri_shear hf hg hh v).2.symm
  rw [e]
  refine ⟨fun v => double_le (a := fun v q => v + q.1 - q.2) hb hfc hgb hhb v, fun l _ hl => ?_⟩
  exact double_vanish (a := fun v q => v + q.1 - q.2) (d := fun q => q.2 - q.1) hb hfc hgb hhb hf (fun v => (tri_shear hf hg hh v).1.aestronglyMeasurable)
    (fun v q => by
      have := abs_sub_abs_le_abs_sub v (q.2 - q.1)
      rwa [show v - (q.2 - q.1) = v + q.1 - q.2 by ring] at this) hl

theorem tri_third (hfb : ∀ x, ‖f x‖ ≤ b x) (hgb : ∀ x, ‖g x‖ ≤ b x) (hhc : ∀ x, ‖h x‖ ≤ c) : (∀ v, ‖tri f g h v‖ ≤ c * (∫ x, b x) ^ 2) ∧
    ∀ (l : Filter ℝ) [l.IsCountablyGenerated], Tendsto (fun v : ℝ => |v|) l atTop → Tendsto (tri f g h) l (𝓝 0) := by
  have e' : ∀ v (q : ℝ × ℝ), f q.1 * g q.2 * h (q.2 + q.1 - v) = h (q.2 + q.1 - v) * g q.2 * f q.1 := fun v q => by ring
  have e : tri f g h = fun v => ∫ q : ℝ × ℝ, h (q.2 + q.1 - v) * g q.2 * f q.1 := funext fun v => by simp only [tri, e']
  have i := fun v => (tri_int hf hg hh v).aestronglyMeasurable
  simp only [e'] at i
  rw [e]
  refine ⟨fun v => double_le (a := fun v q => q.2 + q.1 - v) hb hhc hgb hfb v, fun l _ hl => ?_⟩
  exact double_vanish (a := fun v q => q.2 + q.1 - v) (d := fun q => q.2 + q.1) hb hhc hgb hfb hh i
    (fun v q => by
      have := abs_sub_abs_le_abs_sub v (q.2 + q.1)
      rwa [abs_sub_comm] at this) hl
end

/-! ### The self-energy -/

section
variable {G : Line} (hG : Decays G) (hr : Retarded fun x => (G x).gr)
include hG hr

/-- The last term of the retarded component: all but the spectral parts drop out. -/
theorem tri_last (v : ℝ) : tri (fun x => star (G x).gr) (fun x => star (G x).gr) (fun x => (G x).gr) v =
    -tri (fun x => star (G x).gr) (fun x => (G x).gr - star (G x).gr) (fun x => (G x).gr - star (G x).gr) v := by
  have X := falls_r hG
  have Y := X.star
  have i1 := tri_int Y X X v
  have i2 := tri_int Y X Y v
  have i3 := tri_int Y Y X v
  have i4 := tri_int Y Y Y v
  have z1 := tri_zero_right Y X X (null_same hr) v
  have z2 := tri_zero_outer Y X Y (null_star hr) v
  have z4 := tri_zero_right Y Y Y (null_star hr) v
  have e : tri (fun x => star (G x).gr) (fun x => (G x).gr - star (G x).gr) (fun x => (G x).gr - star (G x).gr) v =
      tri (fun x => star (G x).gr) (fun x => (G x).gr) (fun x => (G x).gr) v - tri (fun x => star (G x).gr) (fun x => (G x).gr) (fun x => star (G x).gr) v -
      (tri (fun x => star (G x).gr) (fun x => star (G x).gr) (fun x => (G x).gr) v - tri (fun x => star (G x).gr) (fun x => star (G x).gr) (fun x => star (G x).gr) v) := by
    unfold tri
    have s1 := integral_sub i1 i2
    have s2 := integral_sub i3 i4
    have s3 := integral_sub (i1.sub i2) (i3.sub i4)
    refine Eq.trans ?_ (s3.trans (congrArg₂ (· - ·) s1 s2))
    refine integral_congr_ae (Eventually.of_forall fun q => ?_)
    simp only [Pi.sub_apply]
    ring
  rw [e, z1, z2, z4]
  ring
end

theorem four (hp : 0 < p.Gam + p.Lam) (h : RetardedSE σ.1) (w v : ℝ) : star ((limit p σ w).1 v) = ((w ^ 2 / (4 * Real.pi ^ 2) : ℝ) : ℂ) * (
    tri (fun x => (lineG p σ.at x).gk) (fun x => (lineG p σ.at x).gk) (fun x => (lineG p σ.at x).gr) v +
    2 * tri (fun x => star (lineG p σ.at x).gr) (fun x => (lineG p σ.at x).gk) (fun x => (lineG p σ.at x).gk) v -
    tri (fun x => star (lineG p σ.at x).gr) (fun x => (lineG p σ.at x).gr - star (lineG p σ.at x).gr) (fun x => (lineG p σ.at x).gr - star (lineG p σ.at x).gr) v) := by
  have hG := (damped_of h).decays hp
  have hr := retarded_G (σ := σ.at) h hp
  simp only [limit, star_star]
  rw [← mul_assoc, pref_eq, tot_tf hG hr, tri_last hG hr, tri_swap (fun x => (lineG p σ.at x).gk) (fun x => star (lineG p σ.at x).gr)]
  push_cast
  ring


section
variable (hp : 0 < p.Gam + p.Lam) (h : RetardedSE σ.1)
include hp h

theorem falls_dif : Falls fun x => (lineG p σ.at x).gr - star (lineG p σ.at x).gr := by
  have hG := (damped_of h).decays hp
  have X := falls_r hG
  have Y := X.star
  obtain ⟨M, M0, hM⟩ := X.bound
  obtain ⟨N, N0, hN⟩ := Y.bound
  exact ⟨X.meas.sub Y.meas, M + N, by positivity, fun x => (norm_sub_le _ _).trans (by have := hM x; have := hN x; linarith)⟩

theorem self_le (w v : ℝ) : ‖(limit p σ w).1 v‖ ≤ 4 * w ^ 2 / half p := by
  have hG := (damped_of h).decays hp
  have X := falls_r hG
  have K := falls_k hG
  have Y := X.star
  have S := falls_dif hp h
  obtain ⟨ib, tb⟩ := dos_int hp h
  have k := gk_le hp h
  have r := gr_sup hp h
  have r' : ∀ x, ‖star (lineG p σ.at x).gr‖ ≤ 1 / half p := fun x => by rw [norm_star]; exact r x
  have s : ∀ x, ‖(lineG p σ.at x).gr - star (lineG p σ.at x).gr‖ ≤ dos p σ x := fun x => (dif_eq x hp h).le
  have a1 := (tri_third K K X ib k k r).1 v
  have a2 := (tri_first Y K K ib r' k k).1 v
  have a3 := (tri_first Y S S ib r' s s).1 v
  have hd := half_pos hp
  have hpi := Real.pi_pos
  rw [← norm_star, four hp h, norm_mul, Complex.norm_real, Real.norm_eq_abs, abs_of_nonneg (by positivity)]
  rw [tb] at a1 a2 a3
  refine (mul_le_mul_of_nonneg_left ((norm_sub_le _ _).trans (add_le_add_left (norm_add_le _ _) _)) (by positivity)).trans ?_
  rw [norm_mul, show ‖(2 : ℂ)‖ = 2 by simp]
  refine (mul_le_mul_of_nonneg_left (add_le_add (add_le_add a1 (mul_le_mul_of_nonneg_left a2 zero_le_two)) a3) (by positivity)).trans (le_of_eq ?_)
  field_simp
  ring

theorem self_vanish (w : ℝ) (l : Filter ℝ) [l.IsCountablyGenerated] (hl : Tendsto (fun v : ℝ => |v|) l atTop) : Tendsto (limit p σ w).1 l (𝓝 0) := by
  have hG := (damped_of h).decays hp
  have X := falls_r hG
  have K := falls_k hG
  have Y := X.star
  have S := falls_dif hp h
  obtain ⟨ib, tb⟩ := dos_int hp h
  have k := gk_le hp h
  have r := gr_sup hp h
  have r' : ∀ x, ‖star (lineG p σ.at x).gr‖ ≤ 1 / half p := fun x => by rw [norm_star]; exact r x
  have s : ∀ x, ‖(lineG p σ.at x).gr - star (lineG p σ.at x).gr‖ ≤ dos p σ x := fun x => (dif_eq x hp h).le
  have a1 := (tri_third K K X ib k k r).2 l hl
  have a2 := (tri_first Y K K ib r' k k).2 l hl
  have a3 := (tri_first Y S S ib r' s s).2 l hl
  have t := (((a1.add (a2.const_mul 2)).sub a3).const_mul ((w ^ 2 / (4 * Real.pi ^ 2) : ℝ) : ℂ)).star
  simp only [mul_zero, add_zero, sub_zero, star_zero] at t
  refine t.congr fun v => ?_
  rw [← four hp h, star_star]

/-! ### The vertex -/

theorem comp_sq (x : ℝ) (a b : Bool) : ‖comp (lineG p σ.at x) a b‖ ^ 2 ≤ 2 * dos p σ x / half p := by
  have hd := half_pos hp
  have d0 := dos_nonneg hp h x
  have g := gr_sq hp h x
  have g' : ‖(lineG p σ.at x).gr‖ ^ 2 ≤ 2 * dos p σ x / half p := g.trans (by
    rw [div_le_div_iff₀ (by positivity) hd]
    nlinarith [mul_nonneg d0 hd.le])
  have k : ‖(lineG p σ.at x).gk‖ ^ 2 ≤ 2 * dos p σ x / half p := by
    have a := gk_le hp h x
    have b : dos p σ x ≤ 2 * ‖(lineG p σ.at x).gr‖ := by
      have := Complex.abs_im_le_norm (lineG p σ.at x).gr
      have := neg_le_abs ((lineG p σ.at x).gr).im
      unfold dos; linarith
    have c : ‖(lineG p σ.at x).gk‖ ^ 2 ≤ 4 * ‖(lineG p σ.at x).gr‖ ^ 2 := by
      nlinarith [norm_nonneg (lineG p σ.at x).gk, norm_nonneg (lineG p σ.at x).gr]
    refine (c.trans (mul_le_mul_of_nonneg_left g (by norm_num))).trans (le_of_eq ?_)
    field_simp
    ring
  cases a <;> cases b <;> simp only [comp, norm_zero, norm_star]
  · have : 0 ≤ 2 * dos p σ x / half p := by positivity
    simpa using this
  · exact g'
  · exact g'
  · exact k

theorem energies_dos (c : Ch) (ν : Fin 4 → ℝ) : (Integrable fun x => dos p σ (Heredity.lineE c ν x).1) ∧ (Integrable fun x => dos p σ (Heredity.lineE c ν x).2) ∧
    (∫ x, dos p σ (Heredity.lineE c ν x).1) = 2 * Real.pi ∧ (∫ x, dos p σ (Heredity.lineE c ν x).2) = 2 * Real.pi := by
  obtain ⟨i, t⟩ := dos_int hp h
  have m : ∀ s : ℝ, Integrable (fun x => dos p σ (x - s)) ∧ ∫ x, dos p σ (x - s) = 2 * Real.pi := fun s =>
    ⟨i.comp_sub_right s, by rw [integral_sub_right_eq_self (dos p σ)]; exact t⟩
  have a : ∀ s : ℝ, Integrable (fun x => dos p σ (x + s)) ∧ ∫ x, dos p σ (x + s) = 2 * Real.pi := fun s =>
    ⟨i.comp_add_right s, by rw [integral_add_right_eq_self (dos p σ)]; exact t⟩
  have n : ∀ s : ℝ, Integrable (fun x => dos p σ (-x + s)) ∧ ∫ x, dos p σ (-x + s) = 2 * Real.pi := fun s => by
    simp only [neg_add_eq_sub]
    exact ⟨i.comp_sub_left s, by rw [integral_sub_left_eq_self (dos p σ)]; exact t⟩
  cases c <;> simp only [Heredity.lineE]
  · exact ⟨(m _).1, (a _).1, (m _).2, (a _).2⟩
  · exact ⟨(a _).1, (n _).1, (a _).2, (n _).2⟩
  · exact ⟨(m _).1, (a _).1, (m _).2, (a _).2⟩

theorem pair_le (c : Ch) (ν : Fin 4 → ℝ) (a b d e : Bool) :
    ∫ x, ‖pair p σ a b d e (Heredity.lineE c ν x).1 (Heredity.lineE c ν x).2‖ ≤ 4 * Real.pi / half p := by
  obtain ⟨i1, i2, t1, t2⟩ := energies_dos hp h c ν
  have hd := half_pos hp
  have le : ∀ x, ‖pair p σ a b d e (Heredity.lineE c ν x).1 (Heredity.lineE c ν x).2‖ ≤
      (1 / half p) * (dos p σ (Heredity.lineE c ν x).1 + dos p σ (Heredity.lineE c ν x).2) := fun x => by
    have q1 := comp_sq hp h (Heredity.lineE c ν x).1 a d
    have q2 := comp_sq hp h (Heredity.lineE c ν x).2 b e
    have : pair p σ a b d e (Heredity.lineE c ν x).1 (Heredity.lineE c ν x).2 =
      comp (lineG p σ.at (Heredity.lineE c ν x).1) a d * comp (lineG p σ.at (Heredity.lineE c ν x).2) b e := rfl
    rw [this, norm_mul]
    have := two_mul_le_add_sq ‖comp (lineG p σ.at (Heredity.lineE c ν x).1) a d‖ ‖comp (lineG p σ.at (Heredity.lineE c ν x).2) b e‖
    have e1 : (1 / half p) * (dos p σ (Heredity.lineE c ν x).1 + dos p σ (Heredity.lineE c ν x).2) =
      (2 * dos p σ (Heredity.lineE c ν x).1 / half p + 2 * dos p σ (Heredity.lineE c ν x).2 / half p) / 2 := by field_simp
    rw [e1]
    linarith
  refine (integral_mono_of_nonneg (Eventually.of_forall fun x => norm_nonneg _) ((i1.add i2).const_mul (1 / half p)) (Eventually.of_forall le)).trans (le_of_eq ?_)
  rw [integral_const_mul]
  have := integral_add i1 i2
  simp only [Pi.add_apply]
  rw [this, t1, t2]
  field_simp
  ring

omit hp h in
theorem leg_le (w : ℝ) (b : Bool) (c : Ch) (o1 o2 i1 i2 : Leg) : ‖legVal ⟨bareK w⟩ b c o1 o2 i1 i2‖ ≤ |w| := by
  have e : ‖beta w o1.k o2.k i1.k i2.k‖ ≤ |w| := by
    unfold beta
    split
    · simp
    · simp
  have z := abs_nonneg w
  have one : (1 : ℕ) ≠ 0 := by decide
  simp only [legVal, bareK, if_true, if_neg one, Matrix.cons_val_zero, Matrix.cons_val_one, Matrix.cons_val]
  by_cases u : o1.s = i1.s ∧ o2.s = i2.s <;> by_cases v : o1.s = i2.s ∧ o2.s = i1.s
  · rw [if_pos u, if_pos v, add_neg_cancel, norm_zero]; exact z
  · rw [if_pos u, if_neg v, add_zero]; exact e
  · rw [if_neg u, if_pos v, zero_add, norm_neg]; exact e
  · rw [if_neg u, if_neg v, add_zero, norm_zero]; exact z

omit hp h in
theorem weight_le (w : ℝ) (c : Ch) (o1 o2 i1 i2 : Leg) (q : Heredity.Lines) : ‖weight w c o1 o2 i1 i2 q‖ ≤ w ^ 2 := by
  have m : ∀ A B : ℂ, ‖A‖ ≤ |w| → ‖B‖ ≤ |w| → ‖A * 1 * B‖ ≤ w ^ 2 := fun A B a b => by
    rw [mul_one, norm_mul, ← sq_abs, sq]
    have := norm_nonneg A
    have := norm_nonneg B
    gcongr
  cases c <;> simp only [weight, Heredity.term]
  · exact m _ _ (leg_le ..) (leg_le ..)
  · split
    · exact m _ _ (leg_le ..) (leg_le ..)
    · simpa using sq_nonneg w
  · exact m _ _ (leg_le ..) (leg_le ..)

omit hp h in
theorem pref_norm (c : Ch) : ‖pref c‖ = 1 / (2 * Real.pi) := by
  have := Real.pi_pos
  cases c <;> simp [pref, abs_of_pos this]

theorem vertex_le (w : ℝ) (b : Bool) (c : Ch) (s : ℕ) (α : Fin 4 → Bool) (ν : Fin 4 → ℝ) :
    ‖bub (bareK w) (bareK w) (pair p σ) b c s α ν‖ ≤ 128 * w ^ 2 / half p := by
  have hd := half_pos hp
  have hpi := Real.pi_pos
  simp only [bub, bubble]
  split
  swap
  · rw [norm_zero]; positivity
  rw [norm_mul, pref_norm]
  simp only [ite_self, Heredity.inner, term_weight]
  obtain ⟨m1, m2, i1, i2⟩ := energies c ν
  have hG := (damped_of h).decays hp
  have I : ∀ q : Heredity.Lines, Integrable fun x => pair p σ q.y0 q.y1 q.y2 q.y3 (Heredity.lineE c ν x).1 (Heredity.lineE c ν x).2 := fun q =>
    pair_int hG m1 m2 i1 i2 q.y0 q.y1 q.y2 q.y3
  have le : ‖∫ x, ∑ q : Heredity.Lines, weight w c ⟨true, α 0, ν 0⟩ ⟨false, α 1, ν 1⟩ ⟨s == 0, α 2, ν 2⟩ ⟨s != 0, α 3, ν 3⟩ q *
      pair p σ q.y0 q.y1 q.y2 q.y3 (Heredity.lineE c ν x).1 (Heredity.lineE c ν x).2‖ ≤ ∑ q : Heredity.Lines, w ^ 2 * (4 * Real.pi / half p) := by
    have := integral_finsetSum Finset.univ fun (q : Heredity.Lines) _ => (I q).const_mul (weight w c ⟨true, α 0, ν 0⟩ ⟨false, α 1, ν 1⟩ ⟨s == 0, α 2, ν 2⟩ ⟨s != 0, α 3, ν 3⟩ q)
    rw [this]
    refine (norm_sum_le _ _).trans (Finset.sum_le_sum fun q _ => ?_)
    rw [integral_const_mul, norm_mul]
    have a := weight_le w c ⟨true, α 0, ν 0⟩ ⟨false, α 1, ν 1⟩ ⟨s == 0, α 2, ν 2⟩ ⟨s != 0, α 3, ν 3⟩ q
    have b := (norm_integral_le_integral_norm _).trans (pair_le hp h c ν q.y0 q.y1 q.y2 q.y3)
    exact mul_le_mul a b (norm_nonneg _) (sq_nonneg w)
  have card : Fintype.card Heredity.Lines = 64 := by decide
  rw [Finset.sum_const, Finset.card_univ, card] at le
  refine (mul_le_mul_of_nonneg_left le (by positivity)).trans (le_of_eq ?_)
  rw [nsmul_eq_mul]
  push_cast
  field_simp
  ring

end

/-! ### Large transfer frequencies -/

theorem quarter (a : ℝ) (ha : 0 < a) : ∃ A : ℝ, 0 ≤ A ∧ A ^ 4 = a ∧ A ^ 6 = a ^ (3 / 2 : ℝ) := by
  refine ⟨a ^ (1 / 4 : ℝ), by positivity, ?_, ?_⟩
  · rw [← Real.rpow_natCast, ← Real.rpow_mul ha.le]; norm_num
  · rw [← Real.rpow_natCast, ← Real.rpow_mul ha.le]; norm_num

theorem split_point (y z t : ℝ) (ht : |t| ≤ |y| + |z|) :
    (1 + ‖y‖)⁻¹ * (1 + ‖z‖)⁻¹ ≤ ((1 + |t|)⁻¹) ^ (1 / 4 : ℝ) * ((1 + ‖y‖) ^ (-(3 / 2) : ℝ) + (1 + ‖z‖) ^ (-(3 / 2) : ℝ)) := by
  have py : 0 < 1 + ‖y‖ := by positivity
  have pz : 0 < 1 + ‖z‖ := by positivity
  have pt : 0 < 1 + |t| := by positivity
  obtain ⟨A, A0, A4, A6⟩ := quarter (1 + ‖y‖)⁻¹ (by positivity)
  obtain ⟨B, B0, B4, B6⟩ := quarter (1 + ‖z‖)⁻¹ (by positivity)
  rw [Real.inv_rpow py.le, ← Real.rpow_neg py.le] at A6
  rw [Real.inv_rpow pz.le, ← Real.rpow_neg pz.le] at B6
  rw [← A6, ← B6]
  have ab : (A * B) ^ 4 ≤ (1 + |t|)⁻¹ := by
    rw [mul_pow, A4, B4, ← mul_inv]
    refine inv_anti₀ pt ?_
    rw [Real.norm_eq_abs, Real.norm_eq_abs]
    nlinarith [abs_nonneg y, abs_nonneg z, mul_nonneg (abs_nonneg y) (abs_nonneg z)]
  have ab' : A * B ≤ ((1 + |t|)⁻¹) ^ (1 / 4 : ℝ) := by
    have := Real.rpow_le_rpow (by positivity) ab (show (0 : ℝ) ≤ 1 / 4 by norm_num)
    rwa [← Real.rpow_natCast, ← Real.rpow_mul (by positivity), show ((4 : ℕ) : ℝ) * (1 / 4) = 1 by norm_num, Real.rpow_one] at this
  rw [← A4, ← B4, show A ^ 4 * B ^ 4 = (A * B) * (A ^ 3 * B ^ 3) by ring]
  refine mul_le_mul ab' ?_ (by positivity) (by positivity)
  nlinarith [sq_nonneg (A ^ 3 - B ^ 3), sq_nonneg (A ^ 3), sq_nonneg (B ^ 3)]

theorem far (c : Ch) (ν : Fin 4 → ℝ) (x : ℝ) : |transfer c ν| ≤ |(Heredity.lineE c ν x).1| + |(Heredity.lineE c ν x).2| := by
  cases c <;> simp only [transfer, Heredity.lineE]
  · rw [show ν 3 - ν 0 = (x + (ν 3 - ν 0) / 2) - (x - (ν 3 - ν 0) / 2) by ring]
    refine (abs_sub _ _).trans ?_
    rw [add_comm]
    refine le_of_eq ?_
    congr 2 <;> ring
  · have := abs_add_le (x + (ν 0 + ν 1) / 2) (-x + (ν 0 + ν 1) / 2)
    rwa [show x + (ν 0 + ν 1) / 2 + (-x + (ν 0 + ν 1) / 2) = ν 0 + ν 1 by ring] at this
  · rw [show ν 3 - ν 1 = (x + (ν 3 - ν 1) / 2) - (x - (ν 3 - ν 1) / 2) by ring]
    refine (abs_sub _ _).trans ?_
    rw [add_comm]
    refine le_of_eq ?_
    congr 2 <;> ring

theorem shifts : ∃ I : ℝ, (∀ c ν, (Integrable fun x => (1 + ‖(Heredity.lineE c ν x).1‖) ^ (-(3 / 2) : ℝ)) ∧
    (Integrable fun x => (1 + ‖(Heredity.lineE c ν x).2‖) ^ (-(3 / 2) : ℝ)) ∧ (∫ x, (1 + ‖(Heredity.lineE c ν x).1‖) ^ (-(3 / 2) : ℝ)) = I ∧
    (∫ x, (1 + ‖(Heredity.lineE c ν x).2‖) ^ (-(3 / 2) : ℝ)) = I) := by
  have i : Integrable fun x : ℝ => (1 + ‖x‖) ^ (-(3 / 2) : ℝ) := integrable_one_add_norm (by norm_num)
  refine ⟨∫ x : ℝ, (1 + ‖x‖) ^ (-(3 / 2) : ℝ), fun c ν => ?_⟩
  have m : ∀ s : ℝ, Integrable (fun x : ℝ => (1 + ‖x - s‖) ^ (-(3 / 2) : ℝ)) ∧ ∫ x : ℝ, (1 + ‖x - s‖) ^ (-(3 / 2) : ℝ) = ∫ x : ℝ, (1 + ‖x‖) ^ (-(3 / 2) : ℝ) := fun s =>
    ⟨i.comp_sub_right s, integral_sub_right_eq_self (fun x : ℝ => (1 + ‖x‖) ^ (-(3 / 2) : ℝ)) s⟩
  have a : ∀ s : ℝ, Integrable (fun x : ℝ => (1 + ‖x + s‖) ^ (-(3 / 2) : ℝ)) ∧ ∫ x : ℝ, (1 + ‖x + s‖) ^ (-(3 / 2) : ℝ) = ∫ x : ℝ, (1 + ‖x‖) ^ (-(3 / 2) : ℝ) := fun s =>
    ⟨i.comp_add_right s, integral_add_right_eq_self (fun x : ℝ => (1 + ‖x‖) ^ (-(3 / 2) : ℝ)) s⟩
  have n : ∀ s : ℝ, Integrable (fun x : ℝ => (1 + ‖-x + s‖) ^ (-(3 / 2) : ℝ)) ∧ ∫ x : ℝ, (1 + ‖-x + s‖) ^ (-(3 / 2) : ℝ) = ∫ x : ℝ, (1 + ‖x‖) ^ (-(3 / 2) : ℝ) := fun s => by
    simp only [neg_add_eq_sub]
    exact ⟨i.comp_sub_left s, integral_sub_left_eq_self (fun x : ℝ => (1 + ‖x‖) ^ (-(3 / 2) : ℝ)) volume s⟩
  cases c <;> simp only [Heredity.lineE]
  · exact ⟨(m _).1, (a _).1, (m _).2, (a _).2⟩
  · exact ⟨(a _).1, (n _).1, (a _).2, (n _).2⟩
  · exact ⟨(m _).1, (a _).1, (m _).2, (a _).2⟩

theorem bub_far (hG : Decays (lineG p σ.at)) (w : ℝ) : ∃ M : ℝ, 0 ≤ M ∧ ∀ (b : Bool) (c : Ch) (s : ℕ) (α : Fin 4 → Bool) (ν : Fin 4 → ℝ),
    ‖bub (bareK w) (bareK w) (pair p σ) b c s α ν‖ ≤ M * ((1 + |transfer c ν|)⁻¹) ^ (1 / 4 : ℝ) := by
  obtain ⟨C, hC0, hC⟩ := comp_bound hG
  obtain ⟨I, hI⟩ := shifts
  have I0 : 0 ≤ I := by
    rw [← (hI .a 0).2.2.1]
    exact integral_nonneg fun x => by positivity
  have hpi := Real.pi_pos
  refine ⟨1 / (2 * Real.pi) * (64 * (w ^ 2 * (C * C * (I + I)))), by positivity, fun b c s α ν => ?_⟩
  simp only [bub, bubble]
  split
  swap
  · rw [norm_zero]; positivity
  rw [norm_mul, pref_norm, mul_assoc]
  refine mul_le_mul_of_nonneg_left ?_ (by positivity)
  simp only [ite_self, Heredity.inner, term_weight]
  obtain ⟨m1, m2, i1, i2⟩ := energies c ν
  obtain ⟨j1, j2, t1, t2⟩ := hI c ν
  set τ := ((1 + |transfer c ν|)⁻¹) ^ (1 / 4 : ℝ) with hτ
  have P : ∀ q : Heredity.Lines, Integrable fun x => pair p σ q.y0 q.y1 q.y2 q.y3 (Heredity.lineE c ν x).1 (Heredity.lineE c ν x).2 := fun q =>
    pair_int hG m1 m2 i1 i2 q.y0 q.y1 q.y2 q.y3
  have L : ∀ q : Heredity.Lines, ‖∫ x, pair p σ q.y0 q.y1 q.y2 q.y3 (Heredity.lineE c ν x).1 (Heredity.lineE c ν x).2‖ ≤ C * C * (I + I) * τ := fun q => by
    have e := integral_add j1 j2
    have le : ∀ x, ‖pair p σ q.y0 q.y1 q.y2 q.y3 (Heredity.lineE c ν x).1 (Heredity.lineE c ν x).2‖ ≤
        C * C * τ * ((1 + ‖(Heredity.lineE c ν x).1‖) ^ (-(3 / 2) : ℝ) + (1 + ‖(Heredity.lineE c ν x).2‖) ^ (-(3 / 2) : ℝ)) := fun x => by
      have : pair p σ q.y0 q.y1 q.y2 q.y3 (Heredity.lineE c ν x).1 (Heredity.lineE c ν x).2 =
        comp (lineG p σ.at (Heredity.lineE c ν x).1) q.y0 q.y2 * comp (lineG p σ.at (Heredity.lineE c ν x).2) q.y1 q.y3 := rfl
      rw [this, norm_mul, mul_assoc (C * C)]
      refine (mul_le_mul (hC _ _ _) (hC _ _ _) (norm_nonneg _) (by positivity)).trans ?_
      rw [mul_mul_mul_comm]
      exact mul_le_mul_of_nonneg_left (split_point _ _ _ (far c ν x)) (by positivity)
    refine (norm_integral_le_of_norm_le ((j1.add j2).const_mul (C * C * τ)) (Eventually.of_forall le)).trans (le_of_eq ?_)
    rw [integral_const_mul]
    simp only [Pi.add_apply]
    rw [e, t1, t2]
    ring
  have := integral_finsetSum Finset.univ fun (q : Heredity.Lines) _ => (P q).const_mul (weight w c ⟨true, α 0, ν 0⟩ ⟨false, α 1, ν 1⟩ ⟨s == 0, α 2, ν 2⟩ ⟨s != 0, α 3, ν 3⟩ q)
  rw [this]
  have card : Fintype.card Heredity.Lines = 64 := by decide
  have S : ∑ q : Heredity.Lines, w ^ 2 * (C * C * (I + I) * τ) = 64 * (w ^ 2 * (C * C * (I + I))) * τ := by
    rw [Finset.sum_const, Finset.card_univ, card, nsmul_eq_mul]
    push_cast
    ring
  rw [← S]
  refine (norm_sum_le _ _).trans (Finset.sum_le_sum fun q _ => ?_)
  rw [integral_const_mul, norm_mul]
  exact mul_le_mul (weight_le ..) (L q) (norm_nonneg _) (sq_nonneg w)

end Verif.Weak
