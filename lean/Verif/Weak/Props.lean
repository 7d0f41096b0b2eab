import Verif.Weak.Lemmas

namespace Verif.Weak
open Verif.Symmetries Verif.Heredity Verif.Propagator Verif.Invariant Verif.Sde.Limit Verif.Sde Verif.Pt2 Verif.Thermal Verif.Causal MeasureTheory Filter Topology
open Verif.Freqs (Ch)

variable {p : Par} {σ : SF} {w U : ℝ}

theorem keldysh_le {T mu : ℝ} {s : SF} (h : ThermalS T mu s) (v : ℝ) : ‖s.2 v‖ ≤ 2 * ‖s.1 v‖ := by
  rw [h v, norm_mul, Complex.norm_real, Real.norm_eq_abs]
  have a : |Real.tanh ((v - mu) / (2 * T))| ≤ 1 := (Real.abs_tanh_lt_one _).le
  have b : ‖s.1 v - star (s.1 v)‖ ≤ 2 * ‖s.1 v‖ := (norm_sub_le _ _).trans (by rw [norm_star]; linarith)
  have := norm_nonneg (s.1 v - star (s.1 v))
  nlinarith [abs_nonneg (Real.tanh ((v - mu) / (2 * T)))]

/-- C168: with any causal self-energy in the lines, the self-energy of second order is at most `16 w² / (Γ + Λ)`, at every
frequency, temperature and position of the level (`w` is the entry of the bare vertex, `-U/2`). -/
theorem c168_self (hp : 0 < p.Gam + p.Lam) (hr : RetardedSE σ.1) {s : SF} (hs : TendsTo (fun Δ => second Δ p σ (bareK w)) s) :
    (∀ v, ‖s.1 v‖ ≤ 8 * w ^ 2 / (p.Gam + p.Lam)) ∧ ∀ v, ‖s.2 v‖ ≤ 16 * w ^ 2 / (p.Gam + p.Lam) := by
  rw [TendsTo.unique hs (second_limit hp (damped_of hr) w)]
  have e : 4 * w ^ 2 / Spectrum.half p = 8 * w ^ 2 / (p.Gam + p.Lam) := by
    unfold Spectrum.half
    field_simp
    ring
  have a : ∀ v, ‖(limit p σ w).1 v‖ ≤ 8 * w ^ 2 / (p.Gam + p.Lam) := fun v => by
    have := self_le hp hr w v
    rwa [e] at this
  refine ⟨a, fun v => (keldysh_le (limit_thermal hp hr w) v).trans ?_⟩
  have := a v
  have e2 : 16 * w ^ 2 / (p.Gam + p.Lam) = 2 * (8 * w ^ 2 / (p.Gam + p.Lam)) := by ring
  rw [e2]
  linarith

/-- C168: it vanishes at large frequencies of either sign. -/
theorem c168_tail (hp : 0 < p.Gam + p.Lam) (hr : RetardedSE σ.1) {s : SF} (hs : TendsTo (fun Δ => second Δ p σ (bareK w)) s) :
    (Tendsto s.1 atTop (𝓝 0) ∧ Tendsto s.1 atBot (𝓝 0)) ∧ Tendsto s.2 atTop (𝓝 0) ∧ Tendsto s.2 atBot (𝓝 0) := by
  rw [TendsTo.unique hs (second_limit hp (damped_of hr) w)]
  have k : ∀ l : Filter ℝ, Tendsto (limit p σ w).1 l (𝓝 0) → Tendsto (limit p σ w).2 l (𝓝 0) := fun l h => by
    rw [tendsto_zero_iff_norm_tendsto_zero] at h ⊢
    have h2 := h.const_mul 2
    rw [mul_zero] at h2
    exact squeeze_zero (fun _ => norm_nonneg _) (keldysh_le (limit_thermal hp hr w)) h2
  have a := self_vanish hp hr w atTop tendsto_abs_atTop_atTop
  have b := self_vanish hp hr w atBot tendsto_abs_atBot_atTop
  exact ⟨⟨a, b⟩, k _ a, k _ b⟩

/-- C168: every component of the vertex of second order is at most `256 w² / (Γ + Λ)`, at all frequencies. -/
theorem c168_vertex (hp : 0 < p.Gam + p.Lam) (hr : RetardedSE σ.1) : SmallV (256 * w ^ 2 / (p.Gam + p.Lam)) (bub (bareK w) (bareK w) (pair p σ)) :=
  fun h c s α ν => by
    have e : 128 * w ^ 2 / Spectrum.half p = 256 * w ^ 2 / (p.Gam + p.Lam) := by
      unfold Spectrum.half
      field_simp
      ring
    rw [← e]
    exact vertex_le hp hr w h c s α ν

/-- C168: the part reducible in a channel vanishes when the transfer frequency of that channel grows, whatever the other frequencies. -/
theorem c168_transfer (hp : 0 < p.Gam + p.Lam) (hr : RetardedSE σ.1) {ε : ℝ} (hε : 0 < ε) :
    ∃ W : ℝ, ∀ h c s α ν, W < |transfer c ν| → ‖bub (bareK w) (bareK w) (pair p σ) h c s α ν‖ < ε := by
  obtain ⟨M, M0, hM⟩ := bub_far ((damped_of hr).decays hp) w
  have t : Tendsto (fun x : ℝ => M * ((1 + x)⁻¹) ^ (1 / 4 : ℝ)) atTop (𝓝 0) := by
    have a : Tendsto (fun x : ℝ => (1 + x)⁻¹) atTop (𝓝 0) := tendsto_inv_atTop_zero.comp (tendsto_atTop_add_const_left _ _ tendsto_id)
    have b := (a.rpow_const (p := 1 / 4) (Or.inr (by norm_num))).const_mul M
    rwa [Real.zero_rpow (by norm_num), mul_zero] at b
  obtain ⟨W, hW⟩ := (t.eventually_lt_const hε).exists_forall_of_atTop
  exact ⟨W, fun h c s α ν hν => (hM h c s α ν).trans_lt (hW _ hν.le)⟩

/-- C168: the state the flow starts with differs from the bare state (self-energy `U/2`, no reducible vertex) by at most
`64 U² / (Γ + Λ)`, at all frequencies, for every temperature and position of the level. -/
theorem c168_start (hp : 0 < p.Gam + p.Lam) : (∃ s : SF, TendsTo (fun Δ => (state2 Δ p U (bareK (-U / 2))).1) s ∧
      NearS (4 * U ^ 2 / (p.Gam + p.Lam)) s (bareSE U)) ∧
    ∀ Δ, SmallV (64 * U ^ 2 / (p.Gam + p.Lam)) (state2 Δ p U (bareK (-U / 2))).2 := by
  have r : RetardedSE (bareSE U).1 := (causal_const p.T p.mu (U / 2)).retarded
  refine ⟨?_, fun Δ => ?_⟩
  · obtain ⟨t, ht, -⟩ := c166_causal (σ := bareSE U) hp r (-U / 2)
    obtain ⟨a, b⟩ := c168_self hp r ht
    refine ⟨_, TendsTo.shift ht (U / 2), fun v => ?_⟩
    have e1 : (Sde.shift (U / 2) t).1 v - (bareSE U).1 v = t.1 v := by simp [Sde.shift, bareSE]
    have e2 : (Sde.shift (U / 2) t).2 v - (bareSE U).2 v = t.2 v := by simp [Sde.shift, bareSE]
    have e3 : 16 * (-U / 2) ^ 2 / (p.Gam + p.Lam) = 4 * U ^ 2 / (p.Gam + p.Lam) := by ring
    have e4 : 8 * (-U / 2) ^ 2 / (p.Gam + p.Lam) ≤ 4 * U ^ 2 / (p.Gam + p.Lam) := by
      have : 8 * (-U / 2) ^ 2 ≤ 4 * U ^ 2 := by nlinarith [sq_nonneg U]
      exact div_le_div_of_nonneg_right this hp.le
    rw [e1, e2, ← e3]
    exact ⟨(a v).trans (e4.trans e3.ge), b v⟩
  · have := c168_vertex (w := -U / 2) hp r
    rwa [show 256 * (-U / 2) ^ 2 / (p.Gam + p.Lam) = 64 * U ^ 2 / (p.Gam + p.Lam) by ring] at this

/-- C168: hence it tends to the bare state when the flow starts at larger and larger hybridisation, uniformly in everything else. -/
theorem c168_limit (U Gam : ℝ) {ε : ℝ} (hε : 0 < ε) : ∃ Λ₀ : ℝ, ∀ p : Par, p.Gam = Gam → Λ₀ ≤ p.Lam →
    (∃ s : SF, TendsTo (fun Δ => (state2 Δ p U (bareK (-U / 2))).1) s ∧ NearS ε s (bareSE U)) ∧
    ∀ Δ, SmallV ε (state2 Δ p U (bareK (-U / 2))).2 := by
  refine ⟨1 - Gam + 64 * U ^ 2 / ε, fun p hG hΛ => ?_⟩
  have q : 0 ≤ 64 * U ^ 2 / ε := by positivity
  have hp : 0 < p.Gam + p.Lam := by rw [hG]; linarith
  have l : 64 * U ^ 2 / (p.Gam + p.Lam) ≤ ε := by
    rw [div_le_iff₀ hp]
    have : 64 * U ^ 2 / ε ≤ p.Gam + p.Lam := by rw [hG]; linarith
    rw [div_le_iff₀ hε] at this
    linarith
  have l' : 4 * U ^ 2 / (p.Gam + p.Lam) ≤ ε := le_trans (by gcongr; norm_num) l
  obtain ⟨⟨s, hs, hn⟩, hv⟩ := c168_start (U := U) hp
  exact ⟨⟨s, hs, fun v => ⟨((hn v).1).trans l', ((hn v).2).trans l'⟩⟩, fun Δ h c s α ν => (hv Δ h c s α ν).trans l⟩

/-- C168: what is read beyond the range of the grid: `U/2` for the retarded component, 0 for the Keldysh component and for the
reducible vertex. For a wide grid this is as close to the state as one likes. -/
theorem c168_outside (hp : 0 < p.Gam + p.Lam) {ε : ℝ} (hε : 0 < ε) : ∃ s : SF, TendsTo (fun Δ => (state2 Δ p U (bareK w)).1) s ∧
    ∃ W : ℝ, (∀ v, W < |v| → ‖s.1 v - ((U / 2 : ℝ) : ℂ)‖ < ε ∧ ‖s.2 v‖ < ε) ∧
      ∀ Δ h c n α ν, W < |transfer c ν| → ‖(state2 Δ p U (bareK w)).2 h c n α ν‖ < ε := by
  have r : RetardedSE (bareSE U).1 := (causal_const p.T p.mu (U / 2)).retarded
  obtain ⟨t, ht, -⟩ := c166_causal (σ := bareSE U) hp r w
  obtain ⟨⟨a, b⟩, c, d⟩ := c168_tail hp r ht
  have ev : ∀ f : ℝ → ℂ, Tendsto f atTop (𝓝 0) → Tendsto f atBot (𝓝 0) → ∃ W : ℝ, ∀ v, W < |v| → ‖f v‖ < ε := fun f h1 h2 => by
    obtain ⟨A, hA⟩ := (((tendsto_zero_iff_norm_tendsto_zero.1 h1)).eventually_lt_const hε).exists_forall_of_atTop
    obtain ⟨B, hB⟩ := (((tendsto_zero_iff_norm_tendsto_zero.1 h2)).eventually_lt_const hε).exists_forall_of_atBot
    refine ⟨max A (-B), fun v hv => ?_⟩
    rcases lt_abs.1 hv with h | h
    · exact hA v ((le_max_left _ _).trans h.le)
    · exact hB v (by have := (le_max_right A (-B)).trans h.le; linarith)
  obtain ⟨A, hA⟩ := ev _ a b
  obtain ⟨B, hB⟩ := ev _ c d
  obtain ⟨C, hC⟩ := c168_transfer (w := w) hp r hε
  refine ⟨_, TendsTo.shift ht (U / 2), max A (max B C), fun v hv => ⟨?_, ?_⟩, fun Δ h c n α ν hν => ?_⟩
  · have := hA v ((le_max_left _ _).trans_lt hv)
    simpa [Sde.shift] using this
  · exact hB v (((le_max_left _ _).trans (le_max_right _ _)).trans_lt hv)
  · exact hC h c n α ν (((le_max_right _ _).trans (le_max_right _ _)).trans_lt hν)

/-- C168: the bounds hold in every step when the result is put into the lines again: no accumulation. -/
theorem c168_again (hp : 0 < p.Gam + p.Lam) (h : ℕ → ℝ) (s : ℕ → SF) (h0 : s 0 = ((fun _ => ((h 0 : ℝ) : ℂ)), 0))
    (hs : ∀ k, TendsTo (fun Δ => Sde.shift (h (k + 1)) (second Δ p (s k) (bareK w))) (s (k + 1))) (k : ℕ) :
    NearS (16 * w ^ 2 / (p.Gam + p.Lam)) (s k) ((fun _ => ((h k : ℝ) : ℂ)), 0) ∧
    SmallV (256 * w ^ 2 / (p.Gam + p.Lam)) (bub (bareK w) (bareK w) (pair p (s k))) := by
  refine ⟨?_, c168_vertex hp (c166_again hp w h s h0 hs k).retarded⟩
  cases k with
  | zero =>
    rw [h0]
    have : (0 : ℝ) ≤ 16 * w ^ 2 / (p.Gam + p.Lam) := by positivity
    exact fun v => by simpa using this
  | succ k =>
    have c := (c166_again hp w h s h0 hs k).retarded
    obtain ⟨t, ht, -⟩ := c166_causal hp c w
    obtain ⟨a, b⟩ := c168_self hp c ht
    rw [TendsTo.unique (hs k) (TendsTo.shift ht (h (k + 1)))]
    intro v
    have e : 8 * w ^ 2 / (p.Gam + p.Lam) ≤ 16 * w ^ 2 / (p.Gam + p.Lam) := by
      gcongr
      norm_num
    have e1 : (Sde.shift (h (k + 1)) t).1 v - ((h (k + 1) : ℝ) : ℂ) = t.1 v := by simp [Sde.shift]
    refine ⟨?_, by simpa [Sde.shift] using b v⟩
    show ‖(Sde.shift (h (k + 1)) t).1 v - ((h (k + 1) : ℝ) : ℂ)‖ ≤ _
    rw [e1]
    exact (a v).trans e

/-- C168: the correction is small but never absent: with interaction the imaginary part of the retarded component is nowhere that of the bare state. -/
theorem c168_present (hp : 0 < p.Gam + p.Lam) (hU : U ≠ 0) {s : SF} (hs : TendsTo (fun Δ => (state2 Δ p U (bareK (-U / 2))).1) s) (v : ℝ) :
    s.1 v ≠ (bareSE U).1 v := by
  have r : RetardedSE (bareSE U).1 := (causal_const p.T p.mu (U / 2)).retarded
  obtain ⟨t, ht, -⟩ := c166_causal (σ := bareSE U) hp r (-U / 2)
  have n := c166_strict hp r (by simpa using hU) ht v
  rw [TendsTo.unique hs (TendsTo.shift ht (U / 2))]
  intro h
  have e1 : t.1 v = 0 := by
    have : t.1 v + ((U / 2 : ℝ) : ℂ) = ((U / 2 : ℝ) : ℂ) := h
    simpa using this
  rw [e1] at n
  simp at n

/-! ### The statements apply -/

-- the model at half filling with the initial values of a flow: U = 1, Γ = 1/5, Λ = 20
example : ∃ s : SF, TendsTo (fun Δ => (state2 Δ (Sde.atHalf 1 (1 / 5) (1 / 100) 20).p 1 (bareK (-1 / 2))).1) s ∧ NearS (1 / 5) s (bareSE 1) := by
  obtain ⟨⟨s, hs, hn⟩, -⟩ := c168_start (p := (Sde.atHalf 1 (1 / 5) (1 / 100) 20).p) (U := 1) (by norm_num [Sde.atHalf])
  refine ⟨s, by simpa using hs, fun v => ?_⟩
  have := hn v
  have e : (4 : ℝ) * 1 ^ 2 / ((Sde.atHalf 1 (1 / 5) (1 / 100) 20).p.Gam + (Sde.atHalf 1 (1 / 5) (1 / 100) 20).p.Lam) ≤ 1 / 5 := by norm_num [Sde.atHalf]
  exact ⟨this.1.trans e, this.2.trans e⟩

-- an energy-conserving configuration far away in channel `a`, at the transfer frequency of the second claim of `c168_outside`
example (W : ℝ) : W < |transfer .a ![0, |W| + 1, 0, |W| + 1]| ∧ (![0, |W| + 1, 0, |W| + 1] : Fin 4 → ℝ) 0 + (![0, |W| + 1, 0, |W| + 1] : Fin 4 → ℝ) 1 =
    (![0, |W| + 1, 0, |W| + 1] : Fin 4 → ℝ) 2 + (![0, |W| + 1, 0, |W| + 1] : Fin 4 → ℝ) 3 := by
  have := le_abs_self W
  have h : |(|W| + 1)| = |W| + 1 := abs_of_nonneg (by positivity)
  simp [transfer, h]
  linarith

end Verif.Weak
