import Verif.Causal.Lemmas
import Verif.Causal.Spec
import Verif.Fdt.PropsChecks
import Verif.Sde.Cases

/-! C166: the self-energy of second order is causal. -/
namespace Verif.Causal
open Verif.Symmetries Verif.Heredity Verif.Propagator Verif.Invariant Verif.Sde.Limit Verif.Sde Verif.Pt2 Verif.Thermal MeasureTheory
open Verif.Freqs (Ch)

variable {p : Par} {σ : SF} {w : ℝ}

/-! ### Lines -/

theorem damped_of (h : RetardedSE σ.1) : Damped σ := by
  obtain ⟨F, C, h1, _, h3, h4, h5⟩ := h
  have e : σ.1 = fun x : ℝ => F x := funext fun x => (h3 x).symm
  refine ⟨?_, ⟨C, fun v => ?_⟩, fun v => ?_⟩
  · rw [e]
    exact (h1.comp_continuous Complex.continuous_ofReal fun x => by simp).measurable
  · rw [← h3]; exact h4 _ (by simp)
  · rw [← h3]; exact h5 _ (by simp)

theorem line_im (hp : 0 < p.Gam + p.Lam) (hσ : Damped σ) (x : ℝ) : ((lineG p σ.at x).gr).im < 0 := by
  have e : (lineG p σ.at x).gr = 1 / ((x - p.eps : ℝ) + Complex.I * p.Gam * 0.5 + Complex.I * p.Lam * 0.5 - σ.1 x) := rfl
  rw [e]
  set D : ℂ := (x - p.eps : ℝ) + Complex.I * p.Gam * 0.5 + Complex.I * p.Lam * 0.5 - σ.1 x with hD
  have im : 0 < D.im := by
    have e05 : (0.5 : ℂ) = ((1/2 : ℝ) : ℂ) := by push_cast; norm_num
    have : D.im = (p.Gam + p.Lam) / 2 - (σ.1 x).im := by
      simp [hD, e05]
      ring
    rw [this]
    have := hσ.im x
    linarith
  have ns : 0 < Complex.normSq D := Complex.normSq_pos.2 fun h => by rw [h] at im; simp at im
  rw [one_div, Complex.inv_im]
  exact div_neg_of_neg_of_pos (by linarith) ns

theorem distr (hp : 0 < p.Gam + p.Lam) (hσ : Damped σ) :
    Distr (fun x => Real.tanh ((x - p.mu) / (2 * p.T))) (lineG p σ.at) :=
  ⟨fun _ => (Real.neg_one_lt_tanh _).le, fun _ => (Real.tanh_lt_one _).le, thermal_G p σ.at, fun x => (line_im hp hσ x).le⟩

/-! ### Sign -/

theorem pref_eq : Loop.prefactor * pref .a = ((1 / (4 * Real.pi ^ 2) : ℝ) : ℂ) := by
  have hpi : (Real.pi : ℂ) ≠ 0 := by exact_mod_cast Real.pi_ne_zero
  simp only [Loop.prefactor, pref]
  push_cast
  field_simp
  simp
  try ring

theorem im_integral_nonneg {α : Type*} [MeasurableSpace α] {μ : Measure α} {f : α → ℂ} (h : ∀ x, 0 ≤ (f x).im) :
    0 ≤ (∫ x, f x ∂μ).im := by
  by_cases hf : Integrable f μ
  · have : (∫ x, f x ∂μ).im = ∫ x, (f x).im ∂μ := (integral_im hf).symm
    rw [this]
    exact integral_nonneg h
  · rw [integral_undef hf]; simp

theorem dia_nonneg {n : ℝ → ℝ} {G : Line} (h : Distr n G) (w v vp y : ℝ) : (dia3 G G G w true false v vp y).im =
    -(4 * w ^ 2 * (((G vp).gr).im * ((G y).gr).im * ((G (y + vp - v)).gr).im) * occ (n vp) (n y) (n (y + vp - v))) ∧
    0 ≤ (dia3 G G G w true false v vp y).im := by
  have e := congrArg Complex.im (dia_im h w v vp y)
  rw [Complex.sub_im, Complex.star_def, Complex.conj_im, Complex.im_ofReal_mul, Complex.I_im, mul_one] at e
  have i1 := h.im vp
  have i2 := h.im y
  have i3 := h.im (y + vp - v)
  have o := occ_nonneg (h.low vp) (h.high vp) (h.low y) (h.high y) (h.low (y + vp - v)) (h.high (y + vp - v))
  have s := mul_nonneg (mul_nonneg (sq_nonneg w) (mul_nonneg_of_nonpos_of_nonpos (mul_nonneg_of_nonpos_of_nonpos i1 i2 |> neg_nonpos.2) i3)) o
  refine ⟨by linarith, ?_⟩
  nlinarith

theorem second_im (hp : 0 < p.Gam + p.Lam) (hσ : Damped σ) (w : ℝ) {Δ : ℝ} (hΔ : 0 ≤ Δ) (v : ℝ) :
    ((second Δ p σ (bareK w)).1 v).im ≤ 0 := by
  have hG := hσ.decays hp
  have hD := distr hp hσ
  set G := lineG p σ.at with hGd
  have hs : ∀ vp, sumK (seen false (bub (bareK w) (bareK w) (pair p σ) false .a)) (G vp) true false v vp =
      pref .a * ∫ y : ℝ, dia3 G G G w true false v vp y := fun vp => by
    simp only [sumK, seen, Bool.false_eq_true, if_false]
    exact close_a hG w true false v vp
  simp only [second, loopOne_value, Bool.false_eq_true, if_false, one_smul]
  rw [Complex.star_def, Complex.conj_im, neg_nonpos]
  simp only [Verif.Sde.integral, ← hGd, hs]
  have e : ∀ vp : ℝ, (pref .a * (∫ y : ℝ, dia3 G G G w true false v vp y) + pref .a * ∫ y : ℝ, dia3 G G G w true false v (-vp) y) * (1/2) =
      pref .a * (((∫ y : ℝ, dia3 G G G w true false v vp y) + ∫ y : ℝ, dia3 G G G w true false v (-vp) y) * (1/2)) := fun vp => by ring
  simp only [e]
  rw [intervalIntegral.integral_const_mul, ← mul_assoc, pref_eq, Complex.im_ofReal_mul,
    intervalIntegral.integral_of_le (by linarith [abs_nonneg v])]
  refine mul_nonneg (by positivity) (im_integral_nonneg fun vp => ?_)
  have a := fun x => im_integral_nonneg (μ := (volume : Measure ℝ)) fun y => (dia_nonneg hD w v x y).2
  have h2 : (1 / 2 : ℂ) = ((1 / 2 : ℝ) : ℂ) := by push_cast; rfl
  rw [h2, Complex.im_mul_ofReal, Complex.add_im]
  have := a vp
  have := a (-vp)
  positivity

/-- C166: for a self-energy in the lines whose retarded component is measurable, bounded and nowhere has positive imaginary
part, the imaginary part of the retarded self-energy of second order is nowhere positive, at every frequency, for every
range of integration, temperature and interaction. -/
theorem c166_damped (hp : 0 < p.Gam + p.Lam) (hσ : Damped σ) (w : ℝ) {Δ : ℝ} (hΔ : 0 ≤ Δ) (v : ℝ) :
    ((second Δ p σ (bareK w)).1 v).im ≤ 0 := second_im hp hσ w hΔ v

/-! ### The complete integral -/

/-- The self-energy of second order with complete integrals. -/
noncomputable def limit (p : Par) (σ : SF) (w : ℝ) : SF :=
  (fun v => star (Loop.prefactor * (pref .a * tot (lineG p σ.at) (lineG p σ.at) (lineG p σ.at) w true false v)),
   fun v => Loop.prefactor * (pref .a * tot (lineG p σ.at) (lineG p σ.at) (lineG p σ.at) w false false v))

theorem second_limit (hp : 0 < p.Gam + p.Lam) (hσ : Damped σ) (w : ℝ) :
    TendsTo (fun Δ => second Δ p σ (bareK w)) (limit p σ w) := by
  have hG := hσ.decays hp
  have L := fun (o i : Bool) (v : ℝ) => integral_limit (G := lineG p σ.at) (W := seen false (bub (bareK w) (bareK w) (pair p σ) false .a))
    (dia3_int hG hG hG w o i v) (κ := pref .a) (fun vp => by
      simp only [sumK, seen, Bool.false_eq_true, if_false]
      exact close_a hG w o i v vp)
  intro v
  simp only [second, loopOne_value, Bool.false_eq_true, if_false, one_smul]
  exact ⟨(continuous_star.tendsto _).comp (L true false v), L false false v⟩

theorem tri_conj (f g h : ℝ → ℂ) (v : ℝ) : star (tri f g h v) = tri (fun x => star (f x)) (fun x => star (g x)) (fun x => star (h x)) v := by
  have : ∫ p : ℝ × ℝ, (starRingEnd ℂ) (f p.1 * g p.2 * h (p.2 + p.1 - v)) = (starRingEnd ℂ) (∫ p : ℝ × ℝ, f p.1 * g p.2 * h (p.2 + p.1 - v)) :=
    integral_conj
  simp only [map_mul] at this
  exact this.symm

section
variable {G : Line} (hG : Decays G)
include hG

theorem falls_r : Falls fun x => (G x).gr := by
  obtain ⟨C, hC⟩ := hG.bound
  have C0 : 0 ≤ C := by
    have := (norm_nonneg _).trans (hC 0).1
    simpa using this
  exact ⟨hG.measR, C, C0, fun x => by simpa [div_eq_mul_inv] using (hC x).1⟩

theorem falls_k : Falls fun x => (G x).gk := by
  obtain ⟨C, hC⟩ := hG.bound
  have C0 : 0 ≤ C := by
    have := (norm_nonneg _).trans (hC 0).1
    simpa using this
  exact ⟨hG.measK, C, C0, fun x => by simpa [div_eq_mul_inv] using (hC x).2⟩

variable (hr : Retarded fun x => (G x).gr)
include hr

omit hG in
theorem null_same (c : ℝ) : ∫ y, (G y).gr * (G (y + c)).gr = 0 := (hr.null_mul (hr.shift c)).2

omit hG in
theorem null_star (c : ℝ) : ∫ y, star (G y).gr * star (G (y + c)).gr = 0 := by
  have := (hr.null_mul (hr.shift c)).star.2
  simpa only [star_mul'] using this

omit hG in
theorem null_flip (c : ℝ) : ∫ y, star (G (c - y)).gr * (G y).gr = 0 := by
  have := ((hr.reflect.shift (-c)).null_mul hr).2
  simpa only [neg_add_rev, neg_neg, sub_eq_add_neg] using this

omit hG in
theorem null_flip' (c : ℝ) : ∫ y, (G (c - y)).gr * star (G y).gr = 0 := by
  have := ((hr.reflect.shift (-c)).null_mul hr).star.2
  simpa only [neg_add_rev, neg_neg, sub_eq_add_neg, star_mul', star_star] using this

/-- The component that causality demands to vanish. -/
theorem tot_tt (w v : ℝ) : tot G G G w true true v = 0 := by
  have X := falls_r hG
  have K := falls_k hG
  have Y := X.star
  unfold tot
  simp only [dia_tt]
  rw [integral_const_mul]
  have i1 := tri_int K X X v
  have i2 := tri_int K Y Y v
  have i3 := tri_int X K X v
  have i4 := tri_int Y K Y v
  have i5 := tri_int X Y K v
  have i6 := tri_int Y X K v
  have z1 := tri_zero_right K X X (null_same hr) v
  have z2 := tri_zero_right K Y Y (null_star hr) v
  have z3 := tri_zero_outer X K X (null_same hr) v
  have z4 := tri_zero_outer Y K Y (null_star hr) v
  have z5 := tri_zero_left X Y K (null_flip' hr) v
  have z6 := tri_zero_left Y X K (null_flip hr) v
  have s1 := integral_add i1 i2
  have s2 := integral_add (i1.add i2) i3
  have s3 := integral_add ((i1.add i2).add i3) i4
  have s4 := integral_add (((i1.add i2).add i3).add i4) i5
  have s5 := integral_add ((((i1.add i2).add i3).add i4).add i5) i6
  simp only [tri] at z1 z2 z3 z4 z5 z6
  refine mul_eq_zero_of_right _ (s5.trans ?_)
  rw [z6, add_zero]
  refine s4.trans ?_
  rw [z5, add_zero]
  refine s3.trans ?_
  rw [z4, add_zero]
  refine s2.trans ?_
  rw [z3, add_zero]
  refine s1.trans ?_
  rw [z1, z2, add_zero]

/-- The retarded component, without the terms that vanish. -/
theorem tot_tf (w v : ℝ) : tot G G G w true false v = (w : ℂ) ^ 2 * (
    tri (fun x => (G x).gk) (fun x => (G x).gk) (fun x => (G x).gr) v + tri (fun x => (G x).gk) (fun x => star (G x).gr) (fun x => (G x).gk) v +
    tri (fun x => star (G x).gr) (fun x => (G x).gk) (fun x => (G x).gk) v + tri (fun x => star (G x).gr) (fun x => star (G x).gr) (fun x => (G x).gr) v) := by
  have X := falls_r hG
  have K := falls_k hG
  have Y := X.star
  unfold tot
  simp only [dia_tf]
  rw [integral_const_mul]
  have i1 := tri_int K K X v
  have i2 := tri_int K Y K v
  have i3 := tri_int Y K K v
  have i4 := tri_int X X X v
  have i5 := tri_int X Y Y v
  have i6 := tri_int Y X Y v
  have i7 := tri_int Y Y X v
  have z4 := tri_zero_right X X X (null_same hr) v
  have z5 := tri_zero_right X Y Y (null_star hr) v
  have z6 := tri_zero_outer Y X Y (null_star hr) v
  have s1 := integral_add i1 i2
  have s2 := integral_add (i1.add i2) i3
  have s3 := integral_add ((i1.add i2).add i3) i4
  have s4 := integral_add (((i1.add i2).add i3).add i4) i5
  have s5 := integral_add ((((i1.add i2).add i3).add i4).add i5) i6
  have s6 := integral_add (((((i1.add i2).add i3).add i4).add i5).add i6) i7
  simp only [tri] at z4 z5 z6 ⊢
  refine congrArg ((w : ℂ) ^ 2 * ·) (s6.trans ?_)
  refine congrArg (· + ∫ p : ℝ × ℝ, star (G p.1).gr * star (G p.2).gr * (G (p.2 + p.1 - v)).gr) ?_
  refine s5.trans ?_
  rw [z6, add_zero]
  refine s4.trans ?_
  rw [z5, add_zero]
  refine s3.trans ?_
  rw [z4, add_zero]
  refine s2.trans ?_
  exact congrArg (· + ∫ p : ℝ × ℝ, star (G p.1).gr * (G p.2).gk * (G (p.2 + p.1 - v)).gk) s1

theorem upper_tf (w : ℝ) : Upper fun v => star (tot G G G w true false v) := by
  have X := falls_r hG
  have K := falls_k hG
  have Y := X.star
  have rf : (fun x => star (G x).gr) = fun x => (fun x => star (G (-x)).gr) (-x) := by
    funext x; simp
  have u1 : Upper fun v => tri (fun x => star (G x).gk) (fun x => star (G x).gk) (fun x => star (G x).gr) v := by
    rw [rf]; exact tri_upper_third K.star K.star hr.reflect
  have u2 := tri_upper_second K.star K.star hr X
  have u3 := tri_upper_first K.star K.star hr X
  have u4 := tri_upper_first X Y hr X
  have U := (Upper.const ((w : ℂ) ^ 2)).mul (((u1.add u2).add u3).add u4)
  refine Eq.mp (congrArg Upper (funext fun v => ?_)) U
  rw [tot_tf hG hr]
  simp only [star_mul', star_add, star_pow, show ∀ x : ℝ, star (x : ℂ) = x from fun x => Complex.conj_ofReal x, tri_conj, star_star]

end

theorem limit_retarded (hp : 0 < p.Gam + p.Lam) (hr : RetardedSE σ.1) (w : ℝ) : RetardedSE (limit p σ w).1 := by
  have hσ := damped_of hr
  have hG := hσ.decays hp
  obtain ⟨F, C, h1, h2, h3, h4⟩ := (Upper.const ((1 / (4 * Real.pi ^ 2) : ℝ) : ℂ)).mul (upper_tf hG (retarded_G (σ := σ.at) hr hp) w)
  have e : ∀ v : ℝ, F v = (limit p σ w).1 v := fun v => by
    rw [h3]
    simp only [limit]
    rw [← mul_assoc, pref_eq, star_mul', show ∀ x : ℝ, star (x : ℂ) = x from fun x => Complex.conj_ofReal x]
  refine ⟨F, C, h1, h2, e, h4, fun z hz => im_nonpos h1 h2 h4 (fun v => ?_) hz⟩
  rw [e]
  have t := (Complex.continuous_im.tendsto _).comp (second_limit hp hσ w v).1
  refine le_of_tendsto t ?_
  filter_upwards [Filter.eventually_ge_atTop 0] with Δ hΔ
  exact second_im hp hσ w hΔ v

theorem limit_thermal (hp : 0 < p.Gam + p.Lam) (hr : RetardedSE σ.1) (w : ℝ) : ThermalS p.T p.mu (limit p σ w) := by
  have hσ := damped_of hr
  have hG := hσ.decays hp
  have hD := distr hp hσ
  intro v
  have z := tot_tt hG (retarded_G (σ := σ.at) hr hp) w v
  have k : tot (lineG p σ.at) (lineG p σ.at) (lineG p σ.at) w false false v - tot (lineG p σ.at) (lineG p σ.at) (lineG p σ.at) w true true v =
      (Real.tanh ((v - p.mu) / (2 * p.T)) : ℝ) * (star (tot (lineG p σ.at) (lineG p σ.at) (lineG p σ.at) w true false v) -
        tot (lineG p σ.at) (lineG p σ.at) (lineG p σ.at) w true false v) := by
    have c : star (tot (lineG p σ.at) (lineG p σ.at) (lineG p σ.at) w true false v) =
        ∫ q : ℝ × ℝ, star (dia3 (lineG p σ.at) (lineG p σ.at) (lineG p σ.at) w true false v q.1 q.2) := (integral_conj (𝕜 := ℂ)).symm
    have ic : Integrable fun q : ℝ × ℝ => star (dia3 (lineG p σ.at) (lineG p σ.at) (lineG p σ.at) w true false v q.1 q.2) :=
      (Complex.conjCLE : ℂ →L[ℝ] ℂ).integrable_comp (dia3_int hG hG hG w true false v)
    rw [c]
    unfold tot
    rw [← integral_sub (dia3_int hG hG hG w false false v) (dia3_int hG hG hG w true true v),
      ← integral_sub ic (dia3_int hG hG hG w true false v), ← integral_const_mul]
    refine integral_congr_ae (Filter.Eventually.of_forall fun q => ?_)
    exact dia_keldysh hD (fun _ => rfl) w v q.1 q.2
  rw [z, sub_zero] at k
  simp only [limit, star_star]
  simp only [← mul_assoc, pref_eq, star_mul', show ∀ x : ℝ, star (x : ℂ) = x from fun x => Complex.conj_ofReal x]
  rw [k]
  ring

/-- C166: if the self-energy in the lines is causal, the self-energy of second order tends for growing range of integration
to one that is causal and in thermal equilibrium. -/
theorem c166_causal (hp : 0 < p.Gam + p.Lam) (hr : RetardedSE σ.1) (w : ℝ) :
    ∃ s : SF, TendsTo (fun Δ => second Δ p σ (bareK w)) s ∧ Causal p.T p.mu s :=
  ⟨limit p σ w, second_limit hp (damped_of hr) w, limit_retarded hp hr w, limit_thermal hp hr w⟩

/-- C166: with interaction and at finite temperature the damping is nowhere zero. -/
theorem c166_strict (hp : 0 < p.Gam + p.Lam) (hr : RetardedSE σ.1) (hw : w ≠ 0) {s : SF}
    (hs : TendsTo (fun Δ => second Δ p σ (bareK w)) s) (v : ℝ) : (s.1 v).im < 0 := by
  have hσ := damped_of hr
  have hG := hσ.decays hp
  have hD := distr hp hσ
  rw [tendsto_nhds_unique (hs v).1 (second_limit hp hσ w v).1]
  simp only [limit]
  rw [← mul_assoc, pref_eq, Complex.star_def, Complex.conj_im, Complex.im_ofReal_mul, neg_lt_zero]
  refine mul_pos (by positivity) ?_
  have I := dia3_int hG hG hG w true false v
  have e : (tot (lineG p σ.at) (lineG p σ.at) (lineG p σ.at) w true false v).im =
      ∫ q : ℝ × ℝ, (dia3 (lineG p σ.at) (lineG p σ.at) (lineG p σ.at) w true false v q.1 q.2).im := (integral_im I).symm
  rw [e]
  have pos : ∀ q : ℝ × ℝ, 0 < (dia3 (lineG p σ.at) (lineG p σ.at) (lineG p σ.at) w true false v q.1 q.2).im := by
    intro q
    rw [(dia_nonneg hD w v q.1 q.2).1]
    have i1 := line_im hp hσ q.1
    have i2 := line_im hp hσ q.2
    have i3 := line_im hp hσ (q.2 + q.1 - v)
    have o : ∀ a b c : ℝ, 0 < occ (Real.tanh a) (Real.tanh b) (Real.tanh c) := fun a b c => by
      have a1 := Real.neg_one_lt_tanh a
      have a2 := Real.tanh_lt_one a
      have b1 := Real.neg_one_lt_tanh b
      have b2 := Real.tanh_lt_one b
      have c1 := Real.neg_one_lt_tanh c
      have c2 := Real.tanh_lt_one c
      have h1 := mul_pos (mul_pos (sub_pos.2 a2) (sub_pos.2 b2)) (show 0 < 1 + Real.tanh c by linarith)
      have h2 := mul_pos (mul_pos (show 0 < 1 + Real.tanh a by linarith) (show 0 < 1 + Real.tanh b by linarith)) (sub_pos.2 c2)
      unfold occ
      linarith
    have n3 := mul_neg_of_pos_of_neg (mul_pos_of_neg_of_neg i1 i2) i3
    have := mul_neg_of_neg_of_pos (mul_neg_of_pos_of_neg (show 0 < 4 * w ^ 2 by positivity) n3)
      (o ((q.1 - p.mu) / (2 * p.T)) ((q.2 - p.mu) / (2 * p.T)) ((q.2 + q.1 - v - p.mu) / (2 * p.T)))
    linarith
  rw [integral_pos_iff_support_of_nonneg (fun q => (pos q).le) I.im]
  have : Function.support (fun q : ℝ × ℝ => (dia3 (lineG p σ.at) (lineG p σ.at) (lineG p σ.at) w true false v q.1 q.2).im) = Set.univ :=
    Set.eq_univ_of_forall fun q => (pos q).ne'
  rw [this]
  exact isOpen_univ.measure_pos volume Set.univ_nonempty

/-! ### Constants, repetition -/

theorem retarded_shift {f : ℝ → ℂ} (h : ℝ) (hf : RetardedSE f) : RetardedSE fun v => f v + (h : ℂ) := by
  obtain ⟨F, C, h1, h2, h3, h4, h5⟩ := hf
  refine ⟨fun z => F z + (h : ℂ), C + |h|, h1.add continuousOn_const, h2.add_const _, fun x => by simp only [h3], fun z hz => ?_, fun z hz => ?_⟩
  · refine (norm_add_le _ _).trans (add_le_add (h4 z hz) ?_)
    simp
  · simpa using h5 z hz

theorem causal_shift {T mu : ℝ} {s : SF} (h : Causal T mu s) (c : ℝ) : Causal T mu (Sde.shift c s) := by
  refine ⟨retarded_shift c h.retarded, fun v => ?_⟩
  have := h.thermal v
  simp only [Sde.shift, star_add, Complex.star_def, Complex.conj_ofReal] at this ⊢
  rw [this]; ring

theorem causal_const (T mu h : ℝ) : Causal T mu ((fun _ => ((h : ℝ) : ℂ)), 0) := by
  refine ⟨⟨fun _ => ((h : ℝ) : ℂ), |h|, continuousOn_const, differentiableOn_const _, fun _ => rfl, fun _ _ => by simp, fun _ _ => by simp⟩,
    fun v => ?_⟩
  simp

theorem TendsTo.shift {f : ℝ → SF} {s : SF} (h : TendsTo f s) (c : ℝ) : TendsTo (fun Δ => Sde.shift c (f Δ)) (Sde.shift c s) :=
  fun v => ⟨(h v).1.add_const _, (h v).2⟩

theorem TendsTo.unique {f : ℝ → SF} {s t : SF} (h : TendsTo f s) (h' : TendsTo f t) : s = t := by
  refine Prod.ext (funext fun v => ?_) (funext fun v => ?_)
  · exact tendsto_nhds_unique (h v).1 (h' v).1
  · exact tendsto_nhds_unique (h v).2 (h' v).2

/-- C166: the result can be used in the lines again: when each self-energy is the one of second order with the previous one
in the lines, plus a real constant, and the first is a real constant, all of them are causal and in equilibrium. -/
theorem c166_again (hp : 0 < p.Gam + p.Lam) (w : ℝ) (h : ℕ → ℝ) (s : ℕ → SF) (h0 : s 0 = ((fun _ => ((h 0 : ℝ) : ℂ)), 0))
    (hs : ∀ k, TendsTo (fun Δ => Sde.shift (h (k + 1)) (second Δ p (s k) (bareK w))) (s (k + 1))) (k : ℕ) : Causal p.T p.mu (s k) := by
  induction k with
  | zero => rw [h0]; exact causal_const _ _ _
  | succ k ih =>
    obtain ⟨t, ht, hc⟩ := c166_causal hp ih.retarded w
    rw [TendsTo.unique (hs k) (TendsTo.shift ht (h (k + 1)))]
    exact causal_shift hc _

/-- C166: in particular the self-energy of second-order perturbation theory: at finite range it has no positive imaginary
part, and it tends to a self-energy that is causal and in equilibrium. -/
theorem c166_pt2 (hp : 0 < p.Gam + p.Lam) (U w : ℝ) :
    (∀ Δ, 0 ≤ Δ → ∀ v, ((state2 Δ p U (bareK w)).1.1 v).im ≤ 0) ∧
    ∃ s : SF, TendsTo (fun Δ => (state2 Δ p U (bareK w)).1) s ∧ Causal p.T p.mu s := by
  have c := causal_const p.T p.mu (U / 2)
  refine ⟨fun Δ hΔ v => ?_, ?_⟩
  · have := second_im (σ := bareSE U) hp (damped_of c.retarded) w hΔ v
    have e : (state2 Δ p U (bareK w)).1.1 v = (second Δ p (bareSE U) (bareK w)).1 v + ((U / 2 : ℝ) : ℂ) := rfl
    rw [e, Complex.add_im, Complex.ofReal_im, add_zero]
    exact this
  · obtain ⟨t, ht, hc⟩ := c166_causal (σ := bareSE U) hp c.retarded w
    exact ⟨_, TendsTo.shift ht (U / 2), causal_shift hc _⟩

/-- C166: the check of the code reports a causal self-energy, for perturbation theory on every grid and for every range. -/
theorem c166_check (hp : 0 < p.Gam + p.Lam) (U w : ℝ) {Δ : ℝ} (hΔ : 0 ≤ Δ) (grid : List ℝ) :
    Fdt.saysCausal grid.length (stored (state2 Δ p U (bareK w)).1 grid) = true := by
  have := (Fdt.c116_causal_partial (grid.map fun v => ((state2 Δ p U (bareK w)).1.1 v).im)).2 (by
    intro x hx
    obtain ⟨v, _, rfl⟩ := List.mem_map.1 hx
    exact (c166_pt2 hp U w).1 Δ hΔ v)
  rw [List.length_map, List.map_map] at this
  exact this

/-! ### The first step of the parquet iteration -/

theorem causal_split (u : Setup) {T mu : ℝ} {s : SF} (h : Causal T mu s) : Causal T mu (split u s) := by
  unfold split
  split
  · exact h
  · have := causal_shift h (-((s.1 u.ends.1 + s.1 u.ends.2) / 2).re)
    refine Eq.mp (congrArg (Causal T mu) ?_) this
    refine Prod.ext (funext fun v => ?_) rfl
    simp only [Sde.shift]
    push_cast
    ring

/-- C166: the Schwinger–Dyson equation applied to the bare vertex, in both versions: the result tends to a self-energy that is
causal and in equilibrium if the one in the lines is causal. With it the parquet iteration begins. -/
theorem c166_parquet (u : Setup) (hp : 0 < u.p.Gam + u.p.Lam) (hr : RetardedSE σ.1) (w : ℝ) (first : Bool) (hartree : SF → ℝ) :
    ∃ s : SF, TendsTo (fun Δ => computeSDE first (withRange u Δ) hartree (bareK w) σ 0) s ∧ Causal u.p.T u.p.mu s := by
  have hσ := damped_of hr
  have hG := hσ.decays hp
  have hw := bareK_good w u.ph
  have b0 := tame_bare w
  obtain ⟨t, ht, hc⟩ := c166_causal hp hr w
  have L := fun c => c162_channels (u := u) (w := w) hG hw b0 c
  have mean : ∀ P : Pair, meanBub (bareK w) (bareK w) P = bub (bareK w) (bareK w) P := fun P => by
    unfold meanBub
    rw [← two_smul ℝ, smul_smul]
    norm_num
  have ha : TendsTo (fun Δ => closed (withRange u Δ) (bareK w) σ (bareK w) .a) (split u t) := by
    have := split_limit u ht
    refine Eq.mp (congrArg (fun f => TendsTo f (split u t)) (funext fun Δ => ?_)) this
    simp only [closed, mean]
    rfl
  have same : ∀ c, exact u w σ (bareK w false c 0) = split u t := fun c => by
    rw [show bareK w false c 0 = bareK w false .a 0 from rfl]
    exact TendsTo.unique (L .a) ha
  have hL : ∀ c, TendsTo (fun Δ => closed (withRange u Δ) (bareK w) σ (bareK w) c) (split u t) := fun c => by
    have := L c
    rwa [same c] at this
  have f0 : full (bareK w) 0 = bareK w := by
    funext h c s α ν
    simp [full, bareK]
  have D : TendsTo (fun Δ => dynamic first (withRange u Δ) (bareK w) σ 0) (split u t) := by
    cases first
    · have := ((hL .a).add (hL .p)).smul (0.5 : ℝ)
      refine Eq.mp ?_ this
      simp only [dynamic, equation2, f0, Bool.false_eq_true, if_false]
      congr 1
      rw [← two_smul ℝ, smul_smul]
      norm_num
    · have := (((hL .a).add (hL .p)).add (hL .t)).sub ((hL .a).smul (2 : ℝ))
      refine Eq.mp ?_ this
      simp only [dynamic, equation1, add_zero, if_true]
      congr 1
      module
  exact ⟨_, TendsTo.shift D (if u.ph then u.U / 2 else hartree σ), causal_shift (causal_split u hc) _⟩

/-! ### Cases -/

example (U Gam T Λ : ℝ) (h : 0 < Gam + Λ) (v : ℝ) :
    ((state2 (Λ + Gam) (atHalf U Gam T Λ).p U (bareK (-U / 2))).1.1 v).im ≤ 0 :=
  (c166_pt2 (p := (atHalf U Gam T Λ).p) h U (-U / 2)).1 _ (by linarith) v

example (Gam T Λ : ℝ) (h : 0 < Gam + Λ) : ∃ s : SF, TendsTo (fun Δ => second Δ (atHalf 2 Gam T Λ).p (bareSE 2) (bareK (-2 / 2))) s ∧
    Causal T 0 s ∧ ∀ v, (s.1 v).im < 0 := by
  have r : RetardedSE (bareSE 2).1 := (causal_const T 0 (2 / 2)).retarded
  obtain ⟨s, hs, hc⟩ := c166_causal (p := (atHalf 2 Gam T Λ).p) h r (-2 / 2)
  exact ⟨s, hs, hc, c166_strict (p := (atHalf 2 Gam T Λ).p) h r (by norm_num) hs⟩

example (U Gam T Λ : ℝ) (h : 0 < Gam + Λ) (first : Bool) :
    ∃ s : SF, TendsTo (fun Δ => (iteration first (withRange (atHalf U Gam T Λ) Δ) (fun _ => 0) (bareK (-U / 2)) (start U)).1) s ∧
      Causal T 0 s :=
  c166_parquet (atHalf U Gam T Λ) h (causal_const T 0 (U / 2)).retarded (-U / 2) first fun _ => 0

example (U Gam T Λ : ℝ) (h : 0 < Gam + Λ) : ∃ s : ℕ → SF, s 0 = ((fun _ => ((U / 2 : ℝ) : ℂ)), 0) ∧
    ∀ k, TendsTo (fun Δ => Sde.shift (U / 2) (second Δ (atHalf U Gam T Λ).p (s k) (bareK (-U / 2)))) (s (k + 1)) := by
  let s : ℕ → SF := fun k => Nat.rec ((fun _ => ((U / 2 : ℝ) : ℂ)), 0) (fun _ t => Sde.shift (U / 2) (limit (atHalf U Gam T Λ).p t (-U / 2))) k
  have c : ∀ k, Causal T 0 (s k) := fun k => by
    induction k with
    | zero => exact causal_const _ _ _
    | succ k ih => exact causal_shift ⟨limit_retarded (p := (atHalf U Gam T Λ).p) h ih.retarded _,
        limit_thermal (p := (atHalf U Gam T Λ).p) h ih.retarded _⟩ _
  exact ⟨s, rfl, fun k => TendsTo.shift (second_limit (p := (atHalf U Gam T Λ).p) h (damped_of (c k).retarded) _) _⟩

end Verif.Causal
