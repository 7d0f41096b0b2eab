import Verif.Chains.Weight

/-! Propagators that depend differentiably on a parameter. -/
namespace Verif.Chains
open Verif.Heredity MeasureTheory Filter Topology
open Verif.Freqs (Ch)

/-- A component of the propagator in equilibrium as a function of its retarded component; `τ` is the distribution factor. -/
noncomputable def lam (τ : ℝ) (a b : Bool) (z : ℂ) : ℂ :=
  match a, b with
  | false, false => 0
  | false, true => star z
  | true, false => z
  | true, true => Complex.I * (τ * 2 * z.im : ℝ)

theorem lam_add (τ : ℝ) (a b : Bool) (z w : ℂ) : lam τ a b (z + w) = lam τ a b z + lam τ a b w := by
  cases a <;> cases b <;> simp [lam]; ring

theorem lam_sub (τ : ℝ) (a b : Bool) (z w : ℂ) : lam τ a b (z - w) = lam τ a b z - lam τ a b w := by
  cases a <;> cases b <;> simp [lam]; ring

theorem lam_smul (τ : ℝ) (a b : Bool) (h : ℝ) (z : ℂ) : lam τ a b (h * z) = h * lam τ a b z := by
  cases a <;> cases b <;> simp [lam]; ring

theorem lam_le {τ : ℝ} (hτ : |τ| ≤ 1) (a b : Bool) (z : ℂ) : ‖lam τ a b z‖ ≤ 2 * ‖z‖ := by
  have n := norm_nonneg z
  cases a <;> cases b <;> simp only [lam]
  · simp
  · rw [norm_star]; linarith
  · linarith
  · rw [norm_mul, Complex.norm_I, one_mul, Complex.norm_real, Real.norm_eq_abs, abs_mul, abs_mul, abs_two]
    have := Complex.abs_im_le_norm z
    have := abs_nonneg z.im
    nlinarith [abs_nonneg τ]

theorem lam_continuous {τ : ℝ → ℝ} (hτ : Continuous τ) {g : ℝ → ℂ} (hg : Continuous g) (a b : Bool) : Continuous fun x => lam (τ x) a b (g x) := by
  cases a <;> cases b <;> simp only [lam]
  · fun_prop
  · exact hg.star
  · exact hg
  · fun_prop

/-- The pair of two propagators with retarded components `g` and `k`. -/
noncomputable def product (τ : ℝ → ℝ) (g k : ℝ → ℂ) : Pair := fun a b c d y z => lam (τ y) a c (g y) * lam (τ z) b d (k z)

theorem product_below {τ : ℝ → ℝ} (hτ : Continuous τ) (hτ1 : ∀ x, |τ x| ≤ 1) {g k : ℝ → ℂ} (hg : Continuous g) (hk : Continuous k)
    {m : ℝ → ℝ} {A B : ℝ} (hm : ∀ x, 0 ≤ m x) (A0 : 0 ≤ A) (hA : ∀ x, ‖g x‖ ≤ A * m x) (hB : ∀ x, ‖k x‖ ≤ B * m x) :
    Below (4 * A * B) m (product τ g k) := by
  refine ⟨fun a b c d => ?_, fun a b c d y z => ?_⟩
  · exact ((lam_continuous hτ hg a c).comp continuous_fst).mul ((lam_continuous hτ hk b d).comp continuous_snd)
  · rw [product, norm_mul]
    have h1 := (lam_le (hτ1 y) a c (g y)).trans (mul_le_mul_of_nonneg_left (hA y) (by norm_num))
    have h2 := (lam_le (hτ1 z) b d (k z)).trans (mul_le_mul_of_nonneg_left (hB z) (by norm_num))
    have := hm y
    refine (mul_le_mul h1 h2 (norm_nonneg _) (by positivity)).trans (le_of_eq ?_)
    ring

theorem Below.add {κ μ : ℝ} {m : ℝ → ℝ} {P Q : Pair} (hP : Below κ m P) (hQ : Below μ m Q) : Below (κ + μ) m (P + Q) :=
  ⟨fun a b c d => (hP.cont a b c d).add (hQ.cont a b c d), fun a b c d y z => (norm_add_le _ _).trans (by
    have := hP.le a b c d y z
    have := hQ.le a b c d y z
    linarith)⟩

theorem Below.smul {κ : ℝ} {m : ℝ → ℝ} {P : Pair} (hP : Below κ m P) (r : ℝ) : Below (|r| * κ) m (r • P) :=
  ⟨fun a b c d => (hP.cont a b c d).const_smul r, fun a b c d y z => by
    have := hP.le a b c d y z
    show ‖r • P a b c d y z‖ ≤ _
    rw [norm_smul, Real.norm_eq_abs, mul_assoc]
    gcongr⟩

theorem Below.mono {κ μ : ℝ} {m : ℝ → ℝ} {P : Pair} (hm : ∀ x, 0 ≤ m x) (hP : Below κ m P) (h : κ ≤ μ) : Below μ m P :=
  ⟨hP.cont, fun a b c d y z => (hP.le a b c d y z).trans (by
    have := hm y
    have := hm z
    gcongr)⟩

/-- The retarded propagator `g` is differentiable at `l` with derivative `g'`, and the derivative is continuous there; uniformly
relative to the weight `m`. -/
structure Smooth (m : ℝ → ℝ) (g g' : ℝ → ℝ → ℂ) (l : ℝ) : Prop where
  size : ∃ C ≥ 0, (∀ᶠ l' in 𝓝 l, (∀ x, ‖g l' x‖ ≤ C * m x) ∧ ∀ x, ‖g' l' x‖ ≤ C * m x)
  deriv : ∀ ε > 0, ∀ᶠ l' in 𝓝 l, ∀ x, ‖g l' x - g l x - (l' - l : ℝ) * g' l x‖ ≤ ε * |l' - l| * m x
  cont : ∀ ε > 0, ∀ᶠ l' in 𝓝 l, ∀ x, ‖g' l' x - g' l x‖ ≤ ε * m x

section
variable {m : ℝ → ℝ} {I : ℝ} (W : Weight I m) {τ : ℝ → ℝ} (hτ : Continuous τ) (hτ1 : ∀ x, |τ x| ≤ 1) {g g' : ℝ → ℝ → ℂ} {l : ℝ}
  (hg : ∀ᶠ l' in 𝓝 l, Continuous (g l')) (hg' : ∀ᶠ l' in 𝓝 l, Continuous (g' l')) (S : Smooth m g g' l)
include W hτ hτ1 hg hg' S

theorem remainder (ε : ℝ) (ε0 : 0 < ε) : ∀ᶠ l' in 𝓝 l, Below (ε * |l' - l|) m
    (product τ (g l') (g l') + (-1 : ℝ) • product τ (g l) (g l) + (-(l' - l)) • (product τ (g l) (g' l) + product τ (g' l) (g l))) := by
  obtain ⟨C, C0, hC⟩ := S.size
  have d0 := hC.self_of_nhds
  set δ : ℝ := ε / (4 * (3 * C + 1)) with hδ
  have δ0 : 0 < δ := by positivity
  set η : ℝ := ε / (4 * (C + δ + 1) * (C + 1) * 4) with hη
  have η0 : 0 < η := by positivity
  have near : ∀ᶠ l' in 𝓝 l, |l' - l| < η := by
    have : ContinuousAt (fun l' => |l' - l|) l := by fun_prop
    exact this.eventually_lt continuousAt_const (by simpa using η0)
  filter_upwards [hC, S.deriv δ δ0, near, hg] with l' h1 h2 h3 h4
  have c0 := hg.self_of_nhds
  have c1 := hg'.self_of_nhds
  refine ⟨fun a b c d => ?_, fun a b c d y z => ?_⟩
  · have k : ∀ {u v : ℝ → ℂ}, Continuous u → Continuous v → Continuous fun q : ℝ × ℝ => product τ u v a b c d q.1 q.2 := fun hu hv =>
      ((lam_continuous hτ hu a c).comp continuous_fst).mul ((lam_continuous hτ hv b d).comp continuous_snd)
    exact ((k h4 h4).add ((k c0 c0).const_smul (-1 : ℝ))).add (((k c0 c1).add (k c1 c0)).const_smul (-(l' - l)))
  · set h : ℝ := l' - l with hh
    have r : ∀ (x : ℝ) (a b : Bool), ‖lam (τ x) a b (g l' x) - lam (τ x) a b (g l x) - h * lam (τ x) a b (g' l x)‖ ≤ 2 * (δ * |h| * m x) := fun x a b => by
      have e : lam (τ x) a b (g l' x) - lam (τ x) a b (g l x) - h * lam (τ x) a b (g' l x) = lam (τ x) a b (g l' x - g l x - (h : ℝ) * g' l x) := by
        rw [lam_sub, lam_sub, lam_smul]
      rw [e]
      exact (lam_le (hτ1 x) _ _ _).trans (mul_le_mul_of_nonneg_left (h2 x) (by norm_num))
    have s : ∀ (x : ℝ) (a b : Bool), ‖lam (τ x) a b (g l' x)‖ ≤ 2 * (C * m x) := fun x a b =>
      (lam_le (hτ1 x) _ _ _).trans (mul_le_mul_of_nonneg_left (h1.1 x) (by norm_num))
    have s0 : ∀ (x : ℝ) (a b : Bool), ‖lam (τ x) a b (g l x)‖ ≤ 2 * (C * m x) := fun x a b =>
      (lam_le (hτ1 x) _ _ _).trans (mul_le_mul_of_nonneg_left (d0.1 x) (by norm_num))
    have t : ∀ (x : ℝ) (a b : Bool), ‖lam (τ x) a b (g' l x)‖ ≤ 2 * (C * m x) := fun x a b =>
      (lam_le (hτ1 x) _ _ _).trans (mul_le_mul_of_nonneg_left (d0.2 x) (by norm_num))
    have df : ∀ (x : ℝ) (a b : Bool), ‖lam (τ x) a b (g l' x) - lam (τ x) a b (g l x)‖ ≤ 2 * ((C + δ) * |h| * m x) := fun x a b => by
      have e : lam (τ x) a b (g l' x) - lam (τ x) a b (g l x) = (lam (τ x) a b (g l' x) - lam (τ x) a b (g l x) - h * lam (τ x) a b (g' l x)) + h * lam (τ x) a b (g' l x) := by ring
      rw [e]
      refine (norm_add_le _ _).trans ?_
      rw [norm_mul, Complex.norm_real, Real.norm_eq_abs]
      have := mul_le_mul_of_nonneg_left (t x a b) (abs_nonneg h)
      have := r x a b
      linarith
    show ‖lam (τ y) a c (g l' y) * lam (τ z) b d (g l' z) + (-1 : ℝ) • (lam (τ y) a c (g l y) * lam (τ z) b d (g l z)) +
      (-h) • (lam (τ y) a c (g l y) * lam (τ z) b d (g' l z) + lam (τ y) a c (g' l y) * lam (τ z) b d (g l z))‖ ≤ _
    have e : lam (τ y) a c (g l' y) * lam (τ z) b d (g l' z) + (-1 : ℝ) • (lam (τ y) a c (g l y) * lam (τ z) b d (g l z)) +
      (-h) • (lam (τ y) a c (g l y) * lam (τ z) b d (g' l z) + lam (τ y) a c (g' l y) * lam (τ z) b d (g l z)) =
      (lam (τ y) a c (g l' y) - lam (τ y) a c (g l y) - h * lam (τ y) a c (g' l y)) * lam (τ z) b d (g l' z) +
      lam (τ y) a c (g l y) * (lam (τ z) b d (g l' z) - lam (τ z) b d (g l z) - h * lam (τ z) b d (g' l z)) +
      h * (lam (τ y) a c (g' l y) * (lam (τ z) b d (g l' z) - lam (τ z) b d (g l z))) := by
      simp only [Complex.real_smul]; push_cast; ring
    rw [e]
    have my := W.nonneg y
    have mz := W.nonneg z
    have ah := abs_nonneg h
    have p1 := mul_le_mul (r y a c) (s z b d) (norm_nonneg _) (by positivity)
    have p2 := mul_le_mul (s0 y a c) (r z b d) (norm_nonneg _) (by positivity)
    have p3 := mul_le_mul_of_nonneg_left (mul_le_mul (t y a c) (df z b d) (norm_nonneg _) (by positivity)) ah
    have mm : 0 ≤ m y * m z := mul_nonneg my mz
    refine (norm_add_le _ _).trans ((add_le_add (norm_add_le _ _) le_rfl).trans ?_)
    simp only [norm_mul, Complex.norm_real, Real.norm_eq_abs]
    have k1 : 8 * δ * C ≤ ε * (2 / 3) := by
      rw [hδ, mul_div_assoc', div_mul_eq_mul_div, div_le_iff₀ (by positivity)]
      nlinarith
    have k2 : 4 * C * (C + δ) * |h| ≤ ε / 4 := by
      have a1 : 4 * C * (C + δ) * |h| ≤ 4 * (C + 1) * (C + δ + 1) * η := by
        have := h3.le
        have : C ≤ C + 1 := by linarith
        have : C + δ ≤ C + δ + 1 := by linarith
        gcongr
      refine a1.trans (le_of_eq ?_)
      rw [hη]; field_simp
    have := mul_le_mul_of_nonneg_right k1 (mul_nonneg ah mm)
    have := mul_le_mul_of_nonneg_right k2 (mul_nonneg ah mm)
    have : 0 ≤ ε * (|h| * (m y * m z)) := by positivity
    nlinarith [p1, p2, p3]

omit W hτ hτ1 hg hg' S in
theorem deriv_of_remainder {E : Type} [NormedAddCommGroup E] [NormedSpace ℝ E] {f : ℝ → E} {d : E}
    (h : ∀ ε > 0, ∀ᶠ l' in 𝓝 l, ‖f l' - f l - (l' - l) • d‖ ≤ ε * |l' - l|) : HasDerivAt f d l := by
  rw [hasDerivAt_iff_isLittleO, Asymptotics.isLittleO_iff]
  intro ε ε0
  simpa only [Real.norm_eq_abs] using h ε ε0

omit W hτ hτ1 hg hg' S in
theorem smul_form {E : Type} [NormedAddCommGroup E] [NormedSpace ℝ E] (a b d : E) (h : ℝ) : a - b - h • d = a + (-1 : ℝ) • b + (-h) • d := by
  rw [neg_smul, neg_smul, one_smul]; abel

omit W hτ hτ1 hg hg' S in
theorem smul_form' {E : Type} [NormedAddCommGroup E] [NormedSpace ℝ E] (a b : E) : a - b = a + (-1 : ℝ) • b := by
  rw [neg_smul, one_smul]; abel

omit W hτ hτ1 hg hg' S in
theorem cont_of {E : Type} [NormedAddCommGroup E] {f : ℝ → E} (h : ∀ ε > 0, ∀ᶠ l' in 𝓝 l, ‖f l' - f l‖ ≤ ε) : ContinuousAt f l := by
  refine Metric.tendsto_nhds.2 fun ε ε0 => ?_
  filter_upwards [h (ε / 2) (by positivity)] with l' hl
  rw [dist_eq_norm]; linarith

/-- The bubbles are differentiable. -/
theorem bubbles_deriv (r : Keldysh.Ch) : HasDerivAt (fun l => bubbles (product τ (g l) (g l)) r)
    (bubbles (product τ (g l) (g' l) + product τ (g' l) (g l)) r) l := by
  have pi0 := Real.pi_pos
  have I0 := W.I0
  obtain ⟨C, C0, hC⟩ := S.size
  have pr : ∀ {u v : ℝ → ℂ}, Continuous u → Continuous v → (∀ x, ‖u x‖ ≤ C * m x) → (∀ x, ‖v x‖ ≤ C * m x) → Below (4 * C * C) m (product τ u v) :=
    fun hu hv h1 h2 => product_below hτ hτ1 hu hv W.nonneg C0 h1 h2
  have d0 := hC.self_of_nhds
  have c0 := hg.self_of_nhds
  have c1 := hg'.self_of_nhds
  refine deriv_of_remainder (E := Four →L[ℝ] Four →L[ℝ] Four) fun ε ε0 => ?_
  have κ0 : 0 < ε / (32 * (I + 1)) := by positivity
  filter_upwards [remainder W hτ hτ1 hg hg' S (ε / (32 * (I + 1))) κ0, hC, hg] with l' hr h1 h2
  have P0 := (pr c0 c0 d0.1 d0.1)
  have P1 := (pr h2 h2 h1.1 h1.1)
  have D := (pr c0 c1 d0.1 d0.2).add (pr c1 c0 d0.2 d0.1)
  have cc : 0 ≤ 4 * C * C := by positivity
  have q0 := P0.pairs W cc
  have q1 := P1.pairs W cc
  have qd := D.pairs W (by positivity)
  have q2 := (P0.smul (-1)).pairs W (by positivity)
  have q3 := (P1.add (P0.smul (-1))).pairs W (by positivity)
  have q4 := (D.smul (-(l' - l))).pairs W (by positivity)
  have qr := hr.pairs W (by positivity)
  have n := bubbles_norm qr r
  rw [bubbles_pair_add q3 q4 qr, bubbles_pair_add q1 q2 q3, bubbles_pair_smul q0 (-1) q2, bubbles_pair_smul qd _ q4] at n
  have e : bubbles (product τ (g l') (g l')) r - bubbles (product τ (g l) (g l)) r - (l' - l) • bubbles (product τ (g l) (g' l) + product τ (g' l) (g l)) r =
      bubbles (product τ (g l') (g l')) r + (-1 : ℝ) • bubbles (product τ (g l) (g l)) r + (-(l' - l)) • bubbles (product τ (g l) (g' l) + product τ (g' l) (g l)) r := by
    exact smul_form (E := Four →L[ℝ] Four →L[ℝ] Four) _ _ _ _
  rw [e]
  refine n.trans ?_
  have ah := abs_nonneg (l' - l)
  have k : 64 * (ε / (32 * (I + 1)) * |l' - l| * I / (2 * Real.pi)) = ε * |l' - l| * (I / (I + 1)) * (1 / Real.pi) := by
    field_simp; ring
  rw [k]
  have k1 : I / (I + 1) ≤ 1 := by rw [div_le_one (by positivity)]; linarith
  have k2 : 1 / Real.pi ≤ 1 := by rw [div_le_one pi0]; linarith [Real.pi_gt_three]
  calc ε * |l' - l| * (I / (I + 1)) * (1 / Real.pi) ≤ ε * |l' - l| * 1 * 1 := by gcongr
    _ = ε * |l' - l| := by ring

theorem change (ε : ℝ) (ε0 : 0 < ε) : ∀ᶠ l' in 𝓝 l, Below ε m
    ((product τ (g l') (g' l') + product τ (g' l') (g l')) + (-1 : ℝ) • (product τ (g l) (g' l) + product τ (g' l) (g l))) := by
  obtain ⟨C, C0, hC⟩ := S.size
  have d0 := hC.self_of_nhds
  set δ : ℝ := ε / (16 * (C + 1)) with hδ
  have δ0 : 0 < δ := by positivity
  have near : ∀ᶠ l' in 𝓝 l, |l' - l| * (C + 1) < δ := by
    have : ContinuousAt (fun l' => |l' - l| * (C + 1)) l := by fun_prop
    exact this.eventually_lt continuousAt_const (by simpa using δ0)
  filter_upwards [hC, S.deriv 1 one_pos, S.cont δ δ0, near, hg, hg'] with l' h1 h2 h3 h4 h5 h6
  have c0 := hg.self_of_nhds
  have c1 := hg'.self_of_nhds
  refine ⟨fun a b c d => ?_, fun a b c d y z => ?_⟩
  · have k : ∀ {u v : ℝ → ℂ}, Continuous u → Continuous v → Continuous fun q : ℝ × ℝ => product τ u v a b c d q.1 q.2 := fun hu hv =>
      ((lam_continuous hτ hu a c).comp continuous_fst).mul ((lam_continuous hτ hv b d).comp continuous_snd)
    exact ((k h5 h6).add (k h6 h5)).add (((k c0 c1).add (k c1 c0)).const_smul (-1 : ℝ))
  · have s : ∀ (x : ℝ) (a b : Bool), ‖lam (τ x) a b (g l' x)‖ ≤ 2 * (C * m x) := fun x a b =>
      (lam_le (hτ1 x) _ _ _).trans (mul_le_mul_of_nonneg_left (h1.1 x) (by norm_num))
    have t : ∀ (x : ℝ) (a b : Bool), ‖lam (τ x) a b (g' l x)‖ ≤ 2 * (C * m x) := fun x a b =>
      (lam_le (hτ1 x) _ _ _).trans (mul_le_mul_of_nonneg_left (d0.2 x) (by norm_num))
    have dd : ∀ (x : ℝ) (a b : Bool), ‖lam (τ x) a b (g' l' x) - lam (τ x) a b (g' l x)‖ ≤ 2 * (δ * m x) := fun x a b => by
      rw [← lam_sub]
      exact (lam_le (hτ1 x) _ _ _).trans (mul_le_mul_of_nonneg_left (h3 x) (by norm_num))
    have df : ∀ (x : ℝ) (a b : Bool), ‖lam (τ x) a b (g l' x) - lam (τ x) a b (g l x)‖ ≤ 2 * (δ * m x) := fun x a b => by
      rw [← lam_sub]
      refine (lam_le (hτ1 x) _ _ _).trans (mul_le_mul_of_nonneg_left ?_ (by norm_num))
      have e : g l' x - g l x = (g l' x - g l x - (l' - l : ℝ) * g' l x) + (l' - l : ℝ) * g' l x := by ring
      rw [e]
      refine (norm_add_le _ _).trans ?_
      rw [norm_mul, Complex.norm_real, Real.norm_eq_abs]
      have a1 := mul_le_mul_of_nonneg_left (d0.2 x) (abs_nonneg (l' - l))
      have a2 := h2 x
      have a3 := mul_le_mul_of_nonneg_right h4.le (W.nonneg x)
      linarith
    show ‖(lam (τ y) a c (g l' y) * lam (τ z) b d (g' l' z) + lam (τ y) a c (g' l' y) * lam (τ z) b d (g l' z)) +
      (-1 : ℝ) • (lam (τ y) a c (g l y) * lam (τ z) b d (g' l z) + lam (τ y) a c (g' l y) * lam (τ z) b d (g l z))‖ ≤ _
    have e : (lam (τ y) a c (g l' y) * lam (τ z) b d (g' l' z) + lam (τ y) a c (g' l' y) * lam (τ z) b d (g l' z)) +
      (-1 : ℝ) • (lam (τ y) a c (g l y) * lam (τ z) b d (g' l z) + lam (τ y) a c (g' l y) * lam (τ z) b d (g l z)) =
      (lam (τ y) a c (g l' y) * (lam (τ z) b d (g' l' z) - lam (τ z) b d (g' l z)) +
        (lam (τ y) a c (g l' y) - lam (τ y) a c (g l y)) * lam (τ z) b d (g' l z)) +
      ((lam (τ y) a c (g' l' y) - lam (τ y) a c (g' l y)) * lam (τ z) b d (g l' z) +
        lam (τ y) a c (g' l y) * (lam (τ z) b d (g l' z) - lam (τ z) b d (g l z))) := by
      simp only [Complex.real_smul]; push_cast; ring
    rw [e]
    have my := W.nonneg y
    have mz := W.nonneg z
    have p1 := mul_le_mul (s y a c) (dd z b d) (norm_nonneg _) (by positivity)
    have p2 := mul_le_mul (df y a c) (t z b d) (norm_nonneg _) (by positivity)
    have p3 := mul_le_mul (dd y a c) (s z b d) (norm_nonneg _) (by positivity)
    have p4 := mul_le_mul (t y a c) (df z b d) (norm_nonneg _) (by positivity)
    have mm : 0 ≤ m y * m z := mul_nonneg my mz
    refine (norm_add_le _ _).trans ((add_le_add (norm_add_le _ _) (norm_add_le _ _)).trans ?_)
    simp only [norm_mul]
    have k1 : 16 * (C * δ) ≤ ε := by
      rw [hδ]
      have : 16 * (C * (ε / (16 * (C + 1)))) = ε * (C / (C + 1)) := by field_simp
      rw [this]
      exact mul_le_of_le_one_right ε0.le ((div_le_one (by positivity)).2 (by linarith))
    have := mul_le_mul_of_nonneg_right k1 mm
    nlinarith [p1, p2, p3, p4]

/-- The derivative of the bubbles is continuous. -/
theorem bubbles_dcont (r : Keldysh.Ch) : ContinuousAt (fun l => bubbles (product τ (g l) (g' l) + product τ (g' l) (g l)) r) l := by
  have pi0 := Real.pi_pos
  have I0 := W.I0
  obtain ⟨C, C0, hC⟩ := S.size
  have pr : ∀ {u v : ℝ → ℂ}, Continuous u → Continuous v → (∀ x, ‖u x‖ ≤ C * m x) → (∀ x, ‖v x‖ ≤ C * m x) → Below (4 * C * C) m (product τ u v) :=
    fun hu hv h1 h2 => product_below hτ hτ1 hu hv W.nonneg C0 h1 h2
  have d0 := hC.self_of_nhds
  have c0 := hg.self_of_nhds
  have c1 := hg'.self_of_nhds
  refine cont_of (E := Four →L[ℝ] Four →L[ℝ] Four) fun ε ε0 => ?_
  have κ0 : 0 < ε / (32 * (I + 1)) := by positivity
  filter_upwards [change W hτ hτ1 hg hg' S (ε / (32 * (I + 1))) κ0, hC, hg, hg'] with l' hr h1 h2 h3
  have D := (pr c0 c1 d0.1 d0.2).add (pr c1 c0 d0.2 d0.1)
  have D' := (pr h2 h3 h1.1 h1.2).add (pr h3 h2 h1.2 h1.1)
  have cc : 0 ≤ 4 * C * C + 4 * C * C := by positivity
  have q0 := D.pairs W cc
  have q1 := D'.pairs W cc
  have q2 := (D.smul (-1)).pairs W (by positivity)
  have qr := hr.pairs W (by positivity)
  have n := bubbles_norm qr r
  rw [bubbles_pair_add q1 q2 qr, bubbles_pair_smul q0 (-1) q2] at n
  have e := smul_form' (E := Four →L[ℝ] Four →L[ℝ] Four) (bubbles (product τ (g l') (g' l') + product τ (g' l') (g l')) r)
    (bubbles (product τ (g l) (g' l) + product τ (g' l) (g l)) r)
  rw [e]
  refine n.trans ?_
  have k : 64 * (ε / (32 * (I + 1)) * I / (2 * Real.pi)) = ε * (I / (I + 1)) * (1 / Real.pi) := by
    field_simp; ring
  rw [k]
  have k1 : I / (I + 1) ≤ 1 := by rw [div_le_one (by positivity)]; linarith
  have k2 : 1 / Real.pi ≤ 1 := by rw [div_le_one pi0]; linarith [Real.pi_gt_three]
  calc ε * (I / (I + 1)) * (1 / Real.pi) ≤ ε * 1 * 1 := by gcongr
    _ = ε := by ring

end

end Verif.Chains
