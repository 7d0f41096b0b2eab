import Verif.Thermal.Checks
import Verif.Thermal.Model
import Verif.Fdt.PropsChecks
import Mathlib.Analysis.SpecialFunctions.Artanh

/-! C164: vertices, propagators and self-energies in thermal equilibrium stay in thermal equilibrium. -/
namespace Verif.Thermal
open Verif.Fdt Verif.Heredity Verif.Symmetries Verif.Invariant Verif.Sde Verif.Sde.Limit Verif.Propagator MeasureTheory
open Verif.Freqs (Ch legs)

/-- A self-energy with which the propagator is well behaved: the retarded component is measurable, bounded and has nowhere
positive imaginary part. Nothing is assumed about the Keldysh component. -/
structure Damped (σ : SF) : Prop where
  meas : Measurable σ.1
  bound : ∃ C : ℝ, ∀ v, ‖σ.1 v‖ ≤ C
  im : ∀ v, (σ.1 v).im ≤ 0

/-- A vertex in equilibrium that is measurable and bounded. -/
def Settled (T mu : ℝ) (V : VF) : Prop := Equilibrium T mu V ∧ TameV V

theorem Damped.decays {σ : SF} (h : Damped σ) {p : Par} (hp : 0 < p.Gam + p.Lam) : Decays (lineG p σ.at) := by
  obtain ⟨C, hC⟩ := h.bound
  exact c162_decays p hp h.meas hC h.im

section
variable {T mu : ℝ} {V W : VF}

theorem Settled.zero : Settled T mu 0 := ⟨Equilibrium.zero, tame_zero⟩
theorem Settled.add (h : Settled T mu V) (k : Settled T mu W) : Settled T mu (V + W) := ⟨h.1.add k.1, TameV.add h.2 k.2⟩
theorem Settled.sub (h : Settled T mu V) (k : Settled T mu W) : Settled T mu (V - W) := ⟨h.1.sub k.1, TameV.sub h.2 k.2⟩
theorem Settled.smul (r : ℝ) (h : Settled T mu V) : Settled T mu (r • V) := ⟨h.1.smul r, TameV.smul r h.2⟩
theorem Settled.mirror (h : Settled T mu V) : Settled T mu (Invariant.mirror V) := ⟨h.1.mirror, TameV.mirror h.2⟩
theorem Settled.halves (h : Settled T mu V) (k : Settled T mu W) : Settled T mu (Invariant.halves V W) :=
  ⟨h.1.halves k.1, TameV.halves h.2 k.2⟩
theorem Settled.full (h : Settled T mu V) (k : Settled T mu W) : Settled T mu (Invariant.full V W) :=
  ⟨h.1.full k.1, TameV.full h.2 k.2⟩
theorem Settled.others (h : Settled T mu V) : Settled T mu (Invariant.others V) := ⟨h.1.others, TameV.others h.2⟩

end

/-- The bare vertex. -/
theorem settled_bare (T mu w : ℝ) : Settled T mu (bareK w) := ⟨bare_equilibrium T mu w, tame_bare w⟩

/-! ### Propagators and bubbles -/

/-- C164: the propagator of the code is in equilibrium, whatever the self-energy, and so are its extension by a self-energy
in equilibrium and its derivative. -/
theorem c164_lines (p : Par) (σ : SF) :
    ThermalG p.T p.mu (lineG p σ.at) ∧ ∀ dσ : SF, ThermalS p.T p.mu dσ →
      ThermalG p.T p.mu (Invariant.lineE p σ.at dσ.at) ∧ ThermalG p.T p.mu (lineS p σ.at dσ.at) :=
  ⟨thermal_G p σ.at, fun _ h => ⟨thermal_E p σ.at h, thermal_S p σ.at h⟩⟩

/-- C164: bubbles of vertices in equilibrium are in equilibrium, measurable and bounded. -/
theorem c164_bubble {p : Par} {σ : SF} (hp : 0 < p.Gam + p.Lam) (hσ : Damped σ) {L R : VF} (hL : Settled p.T p.mu L)
    (hR : Settled p.T p.mu R) : Settled p.T p.mu (bub L R (pair p σ)) := by
  have dG := hσ.decays hp
  have dP : DecayPair (pair p σ) := decay_pair dG fun h => by cases h
  exact ⟨bub_equilibrium hL.1 hR.1 hL.2 hR.2 dP fun y z => kms_pair (thermal_G p σ.at) (fun h => by cases h) y z,
    tame_bub hL.2 hR.2 dP⟩

/-- C164: the same for the differentiated bubble, if the derivative of the self-energy is in equilibrium. -/
theorem c164_derivative {p : Par} {σ dσ : SF} (hp : 0 < p.Gam + p.Lam) (hσ : Damped σ) (hd : ReadyS p.T p.mu dσ) {L R : VF}
    (hL : Settled p.T p.mu L) (hR : Settled p.T p.mu R) : Settled p.T p.mu (bub L R (dpair p σ dσ)) := by
  have dG := hσ.decays hp
  have dP : DecayPair (dpair p σ dσ) := decay_pair dG fun _ => decays_S dG hd
  exact ⟨bub_equilibrium hL.1 hR.1 hL.2 hR.2 dP fun y z => kms_pair (thermal_G p σ.at) (fun _ => thermal_S p σ.at hd.thermal) y z,
    tame_bub hL.2 hR.2 dP⟩

/-- The extension of the propagator with `USE_FDT_4_SELFENERGY`. The full claim is that the option does not change the
propagator of a self-energy in equilibrium; proved is that this holds where the scale equals the temperature and the
self-energy has no imaginary part. -/
theorem c164_option_partial {p : Par} (hT : p.Lam = p.T) (hmu : p.mu = 0) {σ dσ : SF} (hσ : ∀ v, (σ.1 v).im = 0)
    (hd : ThermalS p.T p.mu dσ) (v : ℝ) : lineEFdt p σ.at dσ.at v = Invariant.lineE p σ.at dσ.at v := by
  have e : diffSigmaK5 { p with v := v } (σ.at v) (dσ.at v) = (dσ.at v).K := by
    have h1 : (σ.at v).R.im = 0 := hσ v
    have h2 : (dσ.at v).K = (Real.tanh ((v - p.mu) / (2 * p.T)) : ℝ) * ((dσ.at v).R - star (dσ.at v).R) := hd v
    simp only [diffSigmaK5]
    rw [h1, h2, hT, hmu, Complex.star_def, Complex.sub_conj]
    push_cast; ring
  simp only [lineEFdt, Invariant.lineE, e]

/-- C164, refuted: with the option `USE_FDT_4_SELFENERGY` and the hybridisation regulator the extension of the propagator by a
self-energy in equilibrium is not in equilibrium, at every scale that differs from the temperature: the option computes the
Keldysh component as if the scale were the temperature. -/
theorem c164_option_refuted (p : Par) (hL : 0 < p.Lam) (hT : 0 < p.T) (hne : p.Lam ≠ p.T) (hG : 0 < p.Gam) (hmu : p.mu = 0) :
    ∃ dσ : SF, ThermalS p.T p.mu dσ ∧ ¬ ThermalG p.T p.mu (lineEFdt p (0 : SF).at dσ.at) := by
  refine ⟨(fun _ => Complex.I, fun v => (Real.tanh ((v - p.mu) / (2 * p.T)) : ℝ) * (Complex.I - star Complex.I)), fun v => rfl, fun h => ?_⟩
  set dσ : SF := (fun _ => Complex.I, fun v => (Real.tanh ((v - p.mu) / (2 * p.T)) : ℝ) * (Complex.I - star Complex.I)) with hdσ
  have h1 := h 1
  have h2 : ThermalG p.T p.mu (Invariant.lineE p (0 : SF).at dσ.at) := thermal_E p _ (fun v => rfl)
  have h2 := h2 1
  have e1 : (lineEFdt p (0 : SF).at dσ.at 1).gr = (Invariant.lineE p (0 : SF).at dσ.at 1).gr := rfl
  rw [e1, ← h2] at h1
  set g := gR .hyb { p with v := 1 } ((0 : SF).at 1) with hg
  have e2 : (lineEFdt p (0 : SF).at dσ.at 1).gk - (Invariant.lineE p (0 : SF).at dσ.at 1).gk =
      g * (diffSigmaK5 { p with v := 1 } ((0 : SF).at 1) (dσ.at 1) - dσ.2 1) * (starRingEnd ℂ) g := by
    simp only [lineEFdt, Invariant.lineE, katK]
    show _ = g * (_ - (dσ.at 1).K) * _
    ring
  rw [h1, sub_self] at e2
  have hg0 : g ≠ 0 := by
    have hd : g = 1 / ((1 - p.eps : ℝ) + Complex.I * p.Gam * 0.5 + Complex.I * p.Lam * 0.5 - (0 : ℂ)) := rfl
    rw [hd]
    refine one_div_ne_zero fun h0 => ?_
    have := congrArg Complex.im h0
    simp at this
    linarith
  have e3 : diffSigmaK5 { p with v := 1 } ((0 : SF).at 1) (dσ.at 1) - dσ.2 1 = 0 := by
    rcases mul_eq_zero.mp e2.symm with h' | h'
    · exact (mul_eq_zero.mp h').resolve_left hg0
    · exact absurd ((map_eq_zero _).mp h') hg0
  have e4 : ((Real.tanh (1 / (2 * p.Lam)) : ℝ) : ℂ) = ((Real.tanh (1 / (2 * p.T)) : ℝ) : ℂ) := by
    have h5 : diffSigmaK5 { p with v := 1 } ((0 : SF).at 1) (dσ.at 1) = 2 * Complex.I * ((Real.tanh (1 / (2 * p.Lam)) : ℝ) : ℂ) := by
      simp [diffSigmaK5, SF.at, hdσ]
    have h6 : dσ.2 1 = 2 * Complex.I * ((Real.tanh (1 / (2 * p.T)) : ℝ) : ℂ) := by
      show ((Real.tanh ((1 - p.mu) / (2 * p.T)) : ℝ) : ℂ) * (Complex.I - star Complex.I) = _
      rw [hmu, sub_zero, Complex.star_def, Complex.conj_I]; ring
    rw [h5, h6, sub_eq_zero] at e3
    exact mul_left_cancel₀ (mul_ne_zero two_ne_zero Complex.I_ne_zero) e3
  have e5 := Real.tanh_injective (Complex.ofReal_injective e4)
  apply hne
  field_simp at e5
  linarith

/-! ### The parquet equations -/

/-- C164: the Bethe–Salpeter equations turn vertices in equilibrium into vertices in equilibrium. -/
theorem c164_bse {u : Setup} (hp : 0 < u.p.Gam + u.p.Lam) {σ : SF} (hσ : Damped σ) {bare V : VF} (hb : Settled u.p.T u.p.mu bare)
    (hV : Settled u.p.T u.p.mu V) : Settled u.p.T u.p.mu (computeBSE u bare σ V) :=
  Settled.smul _ ((c164_bubble hp hσ (hb.add hV.others) (hb.full hV)).add (c164_bubble hp hσ (hb.full hV) (hb.add hV.others)))

/-- C164: after any number of iterations of the parquet equations the vertex is in equilibrium, as long as the self-energies
that occur on the way are damped. -/
theorem c164_parquet {u : Setup} (hp : 0 < u.p.Gam + u.p.Lam) (first : Bool) (hartree : SF → ℝ) {bare : VF}
    (hb : Settled u.p.T u.p.mu bare) {y : SF × VF} (hy : Settled u.p.T u.p.mu y.2) (n : ℕ)
    (hσ : ∀ k < n, Damped ((iteration first u hartree bare)^[k] y).1) :
    Settled u.p.T u.p.mu ((iteration first u hartree bare)^[n] y).2 := by
  induction n with
  | zero => exact hy
  | succ n ih =>
    rw [Function.iterate_succ_apply']
    exact c164_bse hp (hσ n (Nat.lt_succ_self n)) hb (ih fun k hk => hσ k (Nat.lt_succ_of_lt hk))

/-! ### The multiloop flow -/

section
variable {o : Open} {Δ : ℝ} {p : Par} {bare V : VF} {σ : SF}

/-- The extraction of K2 leaves vertices in equilibrium; it picks out components of the diagrams. -/
def Keeps (o : Open) (T mu : ℝ) : Prop := ∀ V, Settled T mu V → Settled T mu (o.k2 V)

theorem Settled.central (ho : Keeps o p.T p.mu) (hp : 0 < p.Gam + p.Lam) (hσ : Damped σ) (hb : Settled p.T p.mu bare)
    (hV : Settled p.T p.mu V) {L R : VF} (hL : Settled p.T p.mu L) (hR : Settled p.T p.mu R) :
    Settled p.T p.mu (Invariant.central o p bare σ V L R) := by
  have cr : Settled p.T p.mu (centralRight p bare σ V L R) := c164_bubble hp hσ (hb.full hV) (hL.halves hR).mirror
  have cl : Settled p.T p.mu (centralLeft p bare σ V L R) := c164_bubble hp hσ (hR.halves hL) (hb.full hV)
  have kb : ∀ W, Settled p.T p.mu W → Settled p.T p.mu (o.k2b W) := fun W hW => (ho _ hW.mirror).mirror
  have cl' := (cl.sub (ho _ cl)).add (ho _ cr)
  exact (((cr.sub (kb _ cr)).add (kb _ cl')).add cl').smul _

/-- What holds between the iterations over the loop orders. -/
structure SettledLoop (T mu : ℝ) (s : MfRG.Loop VF) : Prop where
  total : Settled T mu s.total
  now : Settled T mu s.T
  L : Settled T mu s.L
  R : Settled T mu s.R
  ctbar : Settled T mu s.ctbar

theorem SettledLoop.body (ho : Keeps o p.T p.mu) (hp : 0 < p.Gam + p.Lam) (hσ : Damped σ) (hb : Settled p.T p.mu bare)
    (hV : Settled p.T p.mu V) {s : MfRG.Loop VF} (hs : SettledLoop p.T p.mu s) :
    SettledLoop p.T p.mu (s.body (eqs o Δ p bare σ V)) := by
  have hC := Settled.central ho hp hσ hb hV hs.L hs.R
  have hL := c164_bubble hp hσ hs.now.others (hb.full hV)
  have hR := c164_bubble hp hσ (hb.full hV) hs.now.others
  have hT := (hL.add hC).add hR
  exact ⟨hs.total.add hT, hT, hL, hR, hs.ctbar.add hC⟩

theorem SettledLoop.go (ho : Keeps o p.T p.mu) (hp : 0 < p.Gam + p.Lam) (hσ : Damped σ) (hb : Settled p.T p.mu bare)
    (hV : Settled p.T p.mu V) (cfg : MfRG.Cfg) : ∀ (n : Nat) (s : MfRG.Loop VF), SettledLoop p.T p.mu s →
      SettledLoop p.T p.mu (MfRG.Loop.go (eqs o Δ p bare σ V) cfg n s)
  | 0, _, h => h
  | n + 1, s, h => by
    have hb' := SettledLoop.body (Δ := Δ) ho hp hσ hb hV h
    simp only [MfRG.Loop.go]
    split
    · exact hb'
    · exact SettledLoop.go ho hp hσ hb hV cfg n _ hb'

/-- C164: the derivative of the vertex in the multiloop flow is in equilibrium, for any number of loops, and so is the central
part that enters the corrections of the self-energy. -/
theorem c164_flow (ho : Keeps o p.T p.mu) (hp : 0 < p.Gam + p.Lam) (hσ : Damped σ) (hb : Settled p.T p.mu bare)
    (hV : Settled p.T p.mu V) (cfg : MfRG.Cfg) {dσ : SF} (hd : ReadyS p.T p.mu dσ) :
    Settled p.T p.mu (MfRG.vertexPass (eqs o Δ p bare σ V) cfg dσ).1 ∧
    Settled p.T p.mu (MfRG.vertexPass (eqs o Δ p bare σ V) cfg dσ).2 := by
  have h1 : Settled p.T p.mu ((eqs o Δ p bare σ V).one dσ) := c164_derivative hp hσ hd (hb.full hV) (hb.full hV)
  have hL := c164_bubble hp hσ h1.others (hb.full hV)
  have hR := c164_bubble hp hσ (hb.full hV) h1.others
  have hT := hL.add hR
  simp only [MfRG.vertexPass]
  split
  · split
    · have := SettledLoop.go (Δ := Δ) ho hp hσ hb hV cfg (cfg.nloops - 2).toNat ⟨_, _, _, _, 0⟩
        ⟨h1.add hT, hT, hL, hR, Settled.zero⟩
      exact ⟨this.total, this.ctbar⟩
    · exact ⟨h1.add hT, Settled.zero⟩
  · exact ⟨h1, Settled.zero⟩

end

/-! ### The self-energy -/

/-- The third component of the loop, loop.hpp:497-529: the one that vanishes by causality. -/
noncomputable def thirdOf (Δ : ℝ) (Γ : VF) (G : ℝ → Keldysh.Prop2 ℂ) (v : ℝ) : ℂ :=
  (Loop.keldyshLoop (fun vp => Loop.row false true (G vp).matrix
    fun s iK => Γ false .t s (bits iK) (legFun (legs (.ch .t) ⟨0, vp, v⟩))) Δ v).2.2

/-- C164: the loop over a vertex and a propagator in equilibrium gives a self-energy that satisfies the
fluctuation–dissipation relation up to the component that causality demands to vanish, at every frequency and for every
range of integration. -/
theorem c164_loop {T mu : ℝ} {Γ : VF} (hΓ : Settled T mu Γ) {G : ℝ → Keldysh.Prop2 ℂ} (hG : ThermalG T mu G) (dG : Decays G)
    (Δ v : ℝ) : (loop Δ Γ G).2 v = (Real.tanh ((v - mu) / (2 * T)) : ℝ) * ((loop Δ Γ G).1 v - star ((loop Δ Γ G).1 v)) -
      star (thirdOf Δ Γ G v) := by
  obtain ⟨h1, h2⟩ := loop_value Δ Γ G v
  have h3 : thirdOf Δ Γ G v = loopValue Δ Γ G true true v := by
    have h : ∀ vp, _ := fun vp => row_trace Γ (G vp) v vp 1 1 3 rfl
    simp only [thirdOf, Loop.keldyshLoop, Loop.integrand, h, loopValue]
    rfl
  have h4 := loop_rel hΓ.1 hΓ.2 hG dG Δ v
  rw [h1, h2, h3]
  simp only [star_star]
  linear_combination h4

/-- C164: in particular the self-energy is in equilibrium if the third component vanishes. -/
theorem c164_self {T mu : ℝ} {Γ : VF} (hΓ : Settled T mu Γ) {G : ℝ → Keldysh.Prop2 ℂ} (hG : ThermalG T mu G) (dG : Decays G)
    (Δ : ℝ) : ThermalS T mu (loop Δ Γ G) ↔ ∀ v, thirdOf Δ Γ G v = 0 := by
  constructor
  · intro h v
    have h1 := c164_loop hΓ hG dG Δ v
    rw [h v] at h1
    have : star (thirdOf Δ Γ G v) = 0 := by linear_combination h1
    exact (star_eq_zero).mp this
  · intro h v
    rw [c164_loop hΓ hG dG Δ v, h v, star_zero, sub_zero]

/-! ### The checks and completions of the code -/

/-- C164: replacing the components by those that follow from the fluctuation–dissipation relations does not change a vertex in
equilibrium whose last component vanishes. -/
theorem c164_third {T : ℝ} {V : VF} (hV : Equilibrium T 0 V) (h : Bool) (c : Ch) {s : Nat} (hs : s < 2) (w v vp : ℝ)
    (hz : V h c s (bits 15) (legFun (legs (.ch c) ⟨w, v, vp⟩)) = 0) :
    cellK3 c T w v vp (fun iK => V h c s (bits iK) (legFun (legs (.ch c) ⟨w, v, vp⟩))) =
      fun iK => V h c s (bits iK) (legFun (legs (.ch c) ⟨w, v, vp⟩)) := by
  have := c112_third c T w v vp _ (thermal_in hV h c hs w v vp hz)
  rwa [comps_bits] at this

section
variable {p : Par} {σ dσ : SF} {w₀ : ℝ}

/-- C164: the same for the class `K2`: bubbles with the bare vertex on the right. -/
theorem c164_second (hp : 0 < p.Gam + p.Lam) (hσ : Damped σ) (hT : 0 < p.T) (hmu : p.mu = 0) {L : VF}
    (hL : Settled p.T p.mu L) (c : Ch) {s : Nat} (hs : s < 2) (w v vp : ℝ)
    (hz : bub L (bareK w₀) (pair p σ) false c s (bits 15) (legFun (legs (.ch c) ⟨w, v, vp⟩)) = 0) :
    cellK2 c p.T w v (fun iK => bub L (bareK w₀) (pair p σ) false c s (bits iK) (legFun (legs (.ch c) ⟨w, v, vp⟩))) =
      fun iK => bub L (bareK w₀) (pair p σ) false c s (bits iK) (legFun (legs (.ch c) ⟨w, v, vp⟩)) := by
  have hE := (c164_bubble (R := bareK w₀) hp hσ hL (settled_bare _ _ _)).1
  rw [hmu] at hE
  have dP : DecayPair (pair p σ) := decay_pair (hσ.decays hp) fun h => by cases h
  have := c112_second c p.T w v vp hT _ (right_merged (w := w₀) hL.2 dP c s (conserved c _)) (thermal_in hE false c hs w v vp hz)
  rwa [comps_bits] at this

theorem bare_eq (w : ℝ) : bareK w = (bare w).val := by
  funext h c s α ν
  have e : ![α 0, α 1, α 2, α 3] = α := by funext k; fin_cases k <;> rfl
  simp only [bareK, beta, bare, e]
  split_ifs <;> simp

/-- The last component of the class `K1` vanishes. -/
theorem last_vanishes (hr : RetardedSE fun v => (σ.at v).R) (hp : 0 < p.Gam + p.Lam) {diff : Bool}
    (hd : diff = true → Upper fun v => (dσ.at v).R) (c : Ch) {s : Nat} (hs : s < 2) (ν : Fin 4 → ℝ) :
    bub (bareK w₀) (bareK w₀) (pairOf (lineG p σ.at) (lineS p σ.at dσ.at) diff) false c s (bits 15) ν = 0 := by
  have h := c149_causal (diff := diff) (bare_causal w₀ c) (bare_causal w₀ c) (retarded_G hr hp)
    (fun h => retarded_S hr (hd h) hp)
  rw [bare_eq]
  exact h false s hs 15 (by omega) (by cases c <;> rfl) ν

/-- C164: the class `K1` of a bubble passes the check of the code and is not changed by the completion; here also the last
component vanishes, for a self-energy that is retarded. -/
theorem c164_first (hp : 0 < p.Gam + p.Lam) (hσ : Damped σ) (hr : RetardedSE fun v => (σ.at v).R) (hT : 0 < p.T)
    (hmu : p.mu = 0) (c : Ch) {s : Nat} (hs : s < 2) (w v vp : ℝ) :
    diffK1 c p.T w (fun iK => bub (bareK w₀) (bareK w₀) (pair p σ) false c s (bits iK) (legFun (legs (.ch c) ⟨w, v, vp⟩))) = 0 ∧
    cellK1 c p.T w (fun iK => bub (bareK w₀) (bareK w₀) (pair p σ) false c s (bits iK) (legFun (legs (.ch c) ⟨w, v, vp⟩))) =
      fun iK => bub (bareK w₀) (bareK w₀) (pair p σ) false c s (bits iK) (legFun (legs (.ch c) ⟨w, v, vp⟩)) := by
  have hb := settled_bare p.T p.mu w₀
  have hE := (c164_bubble hp hσ hb hb).1
  rw [hmu] at hE
  have dP : DecayPair (pair p σ) := decay_pair (hσ.decays hp) fun h => by cases h
  have hz := last_vanishes (w₀ := w₀) (dσ := σ) (diff := false) hr hp (fun h => by cases h) c hs (legFun (legs (.ch c) ⟨w, v, vp⟩))
  have hz' : bub (bareK w₀) (bareK w₀) (pair p σ) false c s (bits 15) (legFun (legs (.ch c) ⟨w, v, vp⟩)) = 0 := hz
  have t := thermal_in hE false c hs w v vp hz'
  have l := left_merged (w := w₀) hb.2 dP c s (conserved c ⟨w, v, vp⟩)
  have r := right_merged (w := w₀) hb.2 dP c s (conserved c ⟨w, v, vp⟩)
  have h1 := c112_first_check c p.T w v vp hT _ l r t
  have h2 := c112_first c p.T w v vp hT _ l r t
  rw [comps_bits] at h1 h2
  exact ⟨h1, h2⟩

end

/-! ### Cases -/

/-- The start of the parquet iteration, with the Hartree self-energy. -/
theorem damped_start (U : ℝ) : Damped (start U).1 := 
  ⟨measurable_const, ⟨‖((U / 2 : ℝ) : ℂ)‖, fun _ => le_rfl⟩, fun v => by simp [start]⟩

example (U Gam T Λ : ℝ) (h : 0 < Gam + Λ) (first : Bool) :
    Settled T 0 (iteration first (atHalf U Gam T Λ) (fun _ => 0) (bareK (-U / 2)) (start U)).2 := by
  have hy : Settled T 0 (start U).2 := Settled.zero
  have := c164_parquet (u := atHalf U Gam T Λ) h first (fun _ => 0) (settled_bare T 0 (-U / 2)) hy 1 fun k hk => by
    have : k = 0 := by omega
    subst this
    exact damped_start U
  rwa [Function.iterate_one] at this

example (U Gam T Λ : ℝ) (h : 0 < Gam + Λ) (hT : 0 < T) (c : Ch) (w : ℝ) :
    diffK1 c T w (fun iK => bub (bareK (-U / 2)) (bareK (-U / 2)) (pair (atHalf U Gam T Λ).p (start U).1) false c 0 (bits iK)
      (legFun (legs (.ch c) ⟨w, 0, 0⟩))) = 0 :=
  (c164_first (p := (atHalf U Gam T Λ).p) h (damped_start U) ⟨fun _ => (U / 2 : ℝ), ‖((U / 2 : ℝ) : ℂ)‖, continuousOn_const,
    differentiableOn_const _, fun _ => rfl, fun _ _ => le_rfl, fun _ _ => by simp⟩ hT rfl c (by omega) w 0 0).1

example (U Gam T Λ Δ : ℝ) (h : 0 < Gam + Λ) (o : Open) (ho : Keeps o T 0) (cfg : MfRG.Cfg) :
    Settled T 0 (MfRG.vertexPass (eqs o Δ (atHalf U Gam T Λ).p (bareK (-U / 2)) (start U).1 0) cfg 0).1 :=
  (c164_flow (p := (atHalf U Gam T Λ).p) ho h (damped_start U) (settled_bare _ _ _) Settled.zero cfg (ready_zero _ _)).1

example (T : ℝ) : Keeps ⟨fun V => V, fun _ _ => 0, fun _ => none, fun _ _ => none, fun _ => none, fun _ _ => none⟩ T 0 :=
  fun _ h => h

end Verif.Thermal
