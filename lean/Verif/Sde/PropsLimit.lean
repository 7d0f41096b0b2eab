import Verif.Sde.Whole
import Verif.Sde.Cases

/-! C162: the versions of the Schwinger–Dyson equation at real frequencies. -/
namespace Verif.Sde.Limit
open Verif.Symmetries Verif.Heredity Verif.Propagator Verif.Invariant MeasureTheory
open Verif.Freqs (Ch Fr legs)

/-- The pair of components with complete integrals. -/
noncomputable def complete (G : ℝ → Keldysh.Prop2 ℂ) (w : ℝ) (g : (Fin 4 → Bool) → (Fin 4 → ℝ) → ℂ) : SF :=
  (fun v => star (whole G w g true false v), fun v => whole G w g false false v)

/-- The self-energy with complete integrals. -/
noncomputable def exact (u : Setup) (w : ℝ) (σ : SF) (g : (Fin 4 → Bool) → (Fin 4 → ℝ) → ℂ) : SF :=
  split u (complete (lineG u.p σ.at) w g)

/-- Convergence of both components at every frequency. -/
def TendsTo (f : ℝ → SF) (s : SF) : Prop := ∀ v, Filter.Tendsto (fun Δ => (f Δ).1 v) Filter.atTop (nhds (s.1 v)) ∧
  Filter.Tendsto (fun Δ => (f Δ).2 v) Filter.atTop (nhds (s.2 v))

theorem TendsTo.add {f f' : ℝ → SF} {s s' : SF} (h : TendsTo f s) (h' : TendsTo f' s') :
    TendsTo (fun Δ => f Δ + f' Δ) (s + s') := fun v => ⟨(h v).1.add (h' v).1, (h v).2.add (h' v).2⟩

theorem TendsTo.smul {f : ℝ → SF} {s : SF} (h : TendsTo f s) (c : ℝ) : TendsTo (fun Δ => c • f Δ) (c • s) :=
  fun v => ⟨(h v).1.const_smul c, (h v).2.const_smul c⟩

theorem TendsTo.sub {f f' : ℝ → SF} {s s' : SF} (h : TendsTo f s) (h' : TendsTo f' s') :
    TendsTo (fun Δ => f Δ - f' Δ) (s - s') := fun v => ⟨(h v).1.sub (h' v).1, (h v).2.sub (h' v).2⟩

theorem split_limit (u : Setup) {f : ℝ → SF} {s : SF} (h : TendsTo f s) :
    TendsTo (fun Δ => split (withRange u Δ) (f Δ)) (split u s) := by
  intro v
  show Filter.Tendsto (fun Δ => (split u (f Δ)).1 v) _ _ ∧ Filter.Tendsto (fun Δ => (split u (f Δ)).2 v) _ _
  unfold split
  split
  · exact h v
  · refine ⟨(h v).1.sub ?_, (h v).2⟩
    have := ((h u.ends.1).1.add (h u.ends.2).1).div_const 2
    exact (Complex.continuous_ofReal.tendsto _).comp ((Complex.continuous_re.tendsto _).comp this)

theorem split_add (u : Setup) (a b : SF) : split u (a + b) = split u a + split u b := by
  unfold split
  split
  · rfl
  · refine Prod.ext ?_ rfl
    funext v
    simp only [Prod.fst_add, Pi.add_apply]
    push_cast [Complex.add_re, Complex.div_re]
    simp
    ring

variable {u : Setup} {w : ℝ} {σ : SF} {g g' : (Fin 4 → Bool) → (Fin 4 → ℝ) → ℂ}

theorem exact_add (hG : Decays (lineG u.p σ.at)) (hg : Tame g) (hg' : Tame g') :
    exact u w σ (fun α ν => g α ν + g' α ν) = exact u w σ g + exact u w σ g' := by
  unfold exact
  rw [← split_add]
  congr 1
  refine Prod.ext ?_ ?_ <;> funext v <;> simp only [complete, Prod.fst_add, Prod.snd_add, Pi.add_apply]
  · rw [whole_add hG hg hg', star_add]
  · rw [whole_add hG hg hg']

/-- C162: the self-energy from the bubble in each of the three channels, with the same vertex, tends to the same value when
the range of the loop integral grows. -/
theorem c162_channels (hG : Decays (lineG u.p σ.at)) {Γ : VF} (hΓ : GoodV u.ph Γ) (hB : TameV Γ) (c : Ch) :
    TendsTo (fun Δ => closed (withRange u Δ) (bareK w) σ Γ c) (exact u w σ (Γ false c 0)) := by
  have hh : Γ true = Γ false := hΓ.same true
  refine split_limit u ?_
  have t := hB false c 0 (by decide)
  show TendsTo (fun Δ => loopOne (c == .t) Δ ((meanBub (bareK w) Γ (pairOf (lineG u.p σ.at) (lineG u.p σ.at) false)) false c)
    (lineG u.p σ.at)) _
  simp only [loopOne_value]
  set G := lineG u.p σ.at with hGdef
  suffices H : ∀ o i v, Filter.Tendsto (fun Δ => (if (c == Ch.t) then (-1 : ℂ) else 1) * integral Δ (seen (c == .t) ((meanBub (bareK w) Γ (pairOf G G false)) false c))
      G o i v) Filter.atTop (nhds (whole G w (Γ false c 0) o i v)) by
    intro v
    have h1 := (continuous_star.tendsto _).comp (H true false v)
    have h2 := H false false v
    refine ⟨h1.congr fun Δ => ?_, h2.congr fun Δ => ?_⟩
    · cases c <;> simp [Function.comp]
    · cases c <;> simp
  intro o i v
  cases c
  · have := integral_limit (dia_int hG t w o i v) (fun vp => raw_a w hG hB hh o i v vp)
    have e : (Ch.a == Ch.t) = false := rfl
    simp only [e, Bool.false_eq_true, if_false, one_mul]
    exact this
  · obtain ⟨s1, s2⟩ := shear hG t w o i v
    have := integral_limit s1 (fun vp => raw_p w hG hB hh o i v vp)
    rw [s2] at this
    have e : (Ch.p == Ch.t) = false := rfl
    simp only [e, Bool.false_eq_true, if_false, one_mul]
    exact this
  · have hs := (dia_int hG t w o i v).swap
    have := integral_limit hs (fun vp => raw_t w hG hB hh o i v vp (fun a b c d x1 x2 x3 x4 => exchange hΓ .t 0 (by decide) a b c d x1 x2 x3 x4))
    have e : ∫ p : ℝ × ℝ, ((fun p : ℝ × ℝ => dia G w (Γ false .t 0) o i v p.1 p.2) ∘ Prod.swap) p =
        ∫ p : ℝ × ℝ, dia G w (Γ false .t 0) o i v p.1 p.2 := 
      integral_prod_swap (μ := (volume : Measure ℝ)) (ν := (volume : Measure ℝ)) fun p : ℝ × ℝ => dia G w (Γ false .t 0) o i v p.1 p.2
    rw [e] at this
    have := this.const_mul (-1)
    refine (this.congr fun Δ => ?_).trans (le_of_eq ?_)
    · simp
    · unfold whole; congr 1; ring

theorem Tame.add (hg : Tame g) (hg' : Tame g') : Tame fun α ν => g α ν + g' α ν := by
  obtain ⟨A, hA⟩ := hg.bound
  obtain ⟨B, hB⟩ := hg'.bound
  exact ⟨fun α => (hg.meas α).add (hg'.meas α), A + B, fun α ν => (norm_add_le _ _).trans (add_le_add (hA _ _) (hB _ _))⟩

theorem tame_bare (w : ℝ) : TameV (bareK w) := by
  intro h c s _
  refine ⟨fun α => measurable_const, |w|, fun α ν => ?_⟩
  unfold bareK
  split
  · exact beta_bound ..
  · rw [norm_neg]; exact beta_bound ..

theorem bareK_good (w : ℝ) (ph : Bool) : GoodV ph (bareK w) := by
  have : bareK w = (bare w).val := by
    funext h c s α ν
    have e : ![α 0, α 1, α 2, α 3] = α := by funext k; fin_cases k <;> rfl
    simp only [bareK, beta, bare, e]
    split_ifs <;> simp
  rw [this]
  have h := bare_sym w
  refine ⟨?_, fun _ => rfl⟩
  cases ph
  · exact
      { crossIn := h.crossIn
        crossOut := h.crossOut
        conjK := h.conjK
        conjM := fun h' => by cases h'
        ph := fun _ h' => by cases h'
        tr := fun h' => by cases h'
        real := fun h' => by cases h' }
  · exact h

/-- C162: versions 1 and 2 of the Schwinger–Dyson equation tend to the same self-energy when the range of the loop
integrals grows. -/
theorem c162_versions (hG : Decays (lineG u.p σ.at)) {V : VF} (hV : GoodV u.ph V) (hB : TameV V) :
    ∃ s : SF, TendsTo (fun Δ => dynamic true (withRange u Δ) (bareK w) σ V) s ∧
      TendsTo (fun Δ => dynamic false (withRange u Δ) (bareK w) σ V) s := by
  have hw := bareK_good w u.ph
  have b0 := tame_bare w
  have b1 : TameV (bareK w + V) := fun h c s hs => (b0 h c s hs).add (hB h c s hs)
  have b2 : TameV (full (bareK w) V) := fun h c s hs =>
    (b0 false c s hs).add (((hB false .a s hs).add (hB false .p s hs)).add (hB false .t s hs))
  have L := fun c => c162_channels (w := w) hG (GoodV.add hw hV) b1 c
  have L0 := c162_channels (w := w) hG hw b0 .a
  have F := fun c => c162_channels (w := w) hG (full_good hw hV) b2 c
  have z : (0 : ℕ) < 2 := by decide
  have x1 : ∀ c, exact u w σ ((bareK w + V) false c 0) = exact u w σ (bareK w false .a 0) + exact u w σ (V false c 0) :=
    fun c => exact_add hG (b0 false .a 0 z) (hB false c 0 z)
  have x2 : ∀ c, exact u w σ (full (bareK w) V false c 0) = exact u w σ (bareK w false .a 0) +
      (exact u w σ (V false .a 0) + exact u w σ (V false .p 0) + exact u w σ (V false .t 0)) := by
    intro c
    rw [← exact_add hG (hB false .a 0 z) (hB false .p 0 z), ← exact_add hG ((hB false .a 0 z).add (hB false .p 0 z)) (hB false .t 0 z),
      ← exact_add hG (b0 false .a 0 z) (((hB false .a 0 z).add (hB false .p 0 z)).add (hB false .t 0 z))]
    rfl
  refine ⟨exact u w σ (full (bareK w) V false .a 0), ?_, ?_⟩
  · have := (((L .a).add (L .p)).add (L .t)).sub (L0.smul 2)
    have e : exact u w σ ((bareK w + V) false .a 0) + exact u w σ ((bareK w + V) false .p 0) +
        exact u w σ ((bareK w + V) false .t 0) - (2 : ℝ) • exact u w σ (bareK w false .a 0) =
        exact u w σ (full (bareK w) V false .a 0) := by
      rw [x1, x1, x1, x2, two_smul]; abel
    rw [e] at this
    exact this
  · have := ((F .a).add (F .p)).smul 0.5
    have e : (0.5 : ℝ) • (exact u w σ (full (bareK w) V false .a 0) + exact u w σ (full (bareK w) V false .p 0)) =
        exact u w σ (full (bareK w) V false .a 0) := by
      rw [x2 .p, ← x2 .a, ← two_smul ℝ, smul_smul]; norm_num
    rw [e] at this
    exact this

/-- C162: the propagators of the code with `REG == 2` decay like this when the retarded self-energy is bounded and its
imaginary part nowhere positive. -/
theorem c162_decays (p : Par) (hp : 0 < p.Gam + p.Lam) {σ : SF} (hm : Measurable σ.1) {C : ℝ} (hC : ∀ v, ‖σ.1 v‖ ≤ C)
    (hσ : ∀ v, (σ.1 v).im ≤ 0) : Decays (lineG p σ.at) := by
  have hD : ∀ v : ℝ, (lineG p σ.at v).gr = 1 / ((v - p.eps : ℝ) + Complex.I * p.Gam * 0.5 + Complex.I * p.Lam * 0.5 - σ.1 v) :=
    fun v => rfl
  have hk : ∀ v : ℝ, (lineG p σ.at v).gk = Complex.I * ((Real.tanh ((v - p.mu) / (2 * p.T)) * 2 * ((lineG p σ.at v).gr).im : ℝ) : ℂ) :=
    fun v => rfl
  have mr : Measurable fun v : ℝ => (lineG p σ.at v).gr := by
    simp only [hD]
    exact measurable_const.div (((by fun_prop : Measurable fun v : ℝ => ((v - p.eps : ℝ) : ℂ) + Complex.I * p.Gam * 0.5 +
      Complex.I * p.Lam * 0.5)).sub hm)
  set δ : ℝ := (p.Gam + p.Lam) / 2 with hδ
  have hδ0 : 0 < δ := by positivity
  set M : ℝ := |p.eps| + C with hM
  have hC0 : 0 ≤ C := (norm_nonneg _).trans (hC 0)
  have hM0 : 0 ≤ M := by positivity
  have lower : ∀ v : ℝ, δ / (1 + M + δ) * (1 + |v|) ≤
      ‖((v - p.eps : ℝ) : ℂ) + Complex.I * p.Gam * 0.5 + Complex.I * p.Lam * 0.5 - σ.1 v‖ := by
    intro v
    set D : ℂ := ((v - p.eps : ℝ) : ℂ) + Complex.I * p.Gam * 0.5 + Complex.I * p.Lam * 0.5 - σ.1 v with hDd
    have him : D.im = δ - (σ.1 v).im := by rw [hDd]; simp; ring
    have hre : D.re = v - p.eps - (σ.1 v).re := by rw [hDd]; simp
    have h1 : δ ≤ ‖D‖ := by
      have := Complex.abs_im_le_norm D
      have h := hσ v
      rw [him, abs_of_nonneg (by linarith)] at this
      linarith
    have h2 : |v| - M ≤ ‖D‖ := by
      have a1 := Complex.abs_re_le_norm D
      have a2 := (Complex.abs_re_le_norm (σ.1 v)).trans (hC v)
      rw [hre] at a1
      have a3 : |v| ≤ |v - p.eps - (σ.1 v).re| + |p.eps| + |(σ.1 v).re| := by
        calc |v| = |(v - p.eps - (σ.1 v).re) + p.eps + (σ.1 v).re| := by congr 1; ring
          _ ≤ _ := (abs_add_le _ _).trans (add_le_add_left (abs_add_le _ _) _)
      rw [hM]; linarith
    rw [div_mul_eq_mul_div, div_le_iff₀ (by positivity)]
    nlinarith [norm_nonneg D, abs_nonneg v]
  refine ⟨mr, ?_, 2 * ((1 + M + δ) / δ), fun v => ?_⟩
  · simp only [hk]
    have mt : Measurable fun v : ℝ => Real.tanh ((v - p.mu) / (2 * p.T)) := by
      have : (fun v : ℝ => Real.tanh ((v - p.mu) / (2 * p.T))) = fun v => Real.sinh ((v - p.mu) / (2 * p.T)) /
          Real.cosh ((v - p.mu) / (2 * p.T)) := by
        funext v; exact Real.tanh_eq_sinh_div_cosh _
      rw [this]
      exact (Real.measurable_sinh.comp (by fun_prop)).div (Real.measurable_cosh.comp (by fun_prop))
    exact measurable_const.mul (Complex.measurable_ofReal.comp ((mt.mul_const 2).mul (Complex.measurable_im.comp mr)))
  · have hpos : 0 < δ / (1 + M + δ) * (1 + |v|) := by positivity
    have hr : ‖(lineG p σ.at v).gr‖ ≤ (1 + M + δ) / δ / (1 + |v|) := by
      rw [hD, norm_div, norm_one]
      refine (one_div_le_one_div_of_le hpos (lower v)).trans (le_of_eq ?_)
      field_simp
    have hE : 0 ≤ (1 + M + δ) / δ / (1 + |v|) := by positivity
    rw [mul_div_assoc]
    refine ⟨by linarith, ?_⟩
    rw [hk, norm_mul, Complex.norm_I, one_mul, Complex.norm_real, Real.norm_eq_abs, abs_mul, abs_mul]
    have ht : |Real.tanh ((v - p.mu) / (2 * p.T))| ≤ 1 := (Real.abs_tanh_lt_one _).le
    have hi := (Complex.abs_im_le_norm (lineG p σ.at v).gr).trans hr
    rw [abs_of_pos (by norm_num : (0 : ℝ) < 2)]
    nlinarith [abs_nonneg (Real.tanh ((v - p.mu) / (2 * p.T))), abs_nonneg (lineG p σ.at v).gr.im]

/-- Non-vacuity: the start of the parquet iteration at half filling. -/
example (U Gam T Λ : ℝ) (hΓ : 0 < Gam + Λ) : ∃ s : SF,
    TendsTo (fun Δ => dynamic true (withRange (atHalf U Gam T Λ) Δ) (bareK (-U / 2)) (start U).1 (start U).2) s ∧
    TendsTo (fun Δ => dynamic false (withRange (atHalf U Gam T Λ) Δ) (bareK (-U / 2)) (start U).1 (start U).2) s :=
  c162_versions (c162_decays _ hΓ (σ := (start U).1) measurable_const (C := ‖((U / 2 : ℝ) : ℂ)‖) (fun _ => le_rfl)
    (fun v => by simp [start])) GoodV.zero (fun _ _ _ _ => ⟨fun _ => measurable_const, 0, fun _ _ => by simp [start]⟩)

end Verif.Sde.Limit
