import Verif.Chains.Code
import Verif.Family.Props

/-! # C175: the diagrams of the code satisfy the assumptions about bubbles at weak coupling -/
namespace Verif.Chains
open Verif.Heredity Verif.Invariant Verif.Propagator MeasureTheory Filter Topology
open Verif.Spectrum (half)
open Verif.Multiloop (Known Chain Parquet others total)
open Keldysh (Ch)

theorem Four.ext {A B : Four} (h : ∀ s α e, A s α e = B s α e) : A = B :=
  funext fun s => funext fun α => BoundedContinuousFunction.ext fun e => h s α e

theorem IsBubble.unique {P : Pair} {pi pi' : Ch → Four →L[ℝ] Four →L[ℝ] Four} (h : IsBubble P pi) (h' : IsBubble P pi') : pi = pi' :=
  funext fun r => ContinuousLinearMap.ext fun A => ContinuousLinearMap.ext fun B => Four.ext fun s α e => (h r A B s α e).trans (h' r A B s α e).symm

theorem IsBubble.parquet {P : Pair} {pi : Ch → Four →L[ℝ] Four →L[ℝ] Four} (h : IsBubble P pi) (bare : Four) (red : Ch → Four) :
    Parquet pi bare red ↔ Equations P bare red := by
  constructor
  · intro H r s α e
    obtain ⟨h1, h2⟩ := H r
    constructor
    · rw [← h]; exact congrArg (fun A : Four => A s α e) h1
    · rw [← h]; exact congrArg (fun A : Four => A s α e) h2
  · intro H r
    refine ⟨Four.ext fun s α e => ?_, Four.ext fun s α e => ?_⟩
    · rw [h]; exact (H r s α e).1
    · rw [h]; exact (H r s α e).2

section
variable {p : Par} {σ : SF} (hp : 0 < p.Gam + p.Lam) (h : RetardedSE σ.1)
include hp h

/-- **C175** (bubbles). With a retarded self-energy the bubbles of the code are continuous bilinear maps on the bounded continuous
four-point functions, of norm at most 256/(Γ+Λ). -/
theorem c175_bubble : ∃ pi : Ch → Four →L[ℝ] Four →L[ℝ] Four, IsBubble (Invariant.pair p σ) pi ∧ (∀ pi', IsBubble (Invariant.pair p σ) pi' → pi' = pi) ∧
    ∀ r, ‖pi r‖ ≤ 256 / (p.Gam + p.Lam) := by
  have q := pairs hp h
  have b := bubbles_is q
  refine ⟨_, b, fun pi' h' => h'.unique b, fun r => (bubbles_norm q r).trans (le_of_eq ?_)⟩
  rw [half]; field_simp; norm_num

/-- **C175** (chains). Chains of two bubbles in one channel can be evaluated from either end. -/
theorem c175_chain {pi : Ch → Four →L[ℝ] Four →L[ℝ] Four} (hb : IsBubble (Invariant.pair p σ) pi) (r : Ch) (A B C : Four) :
    pi r (pi r A B) C = pi r A (pi r B C) := by
  have q := pairs hp h
  rw [hb.unique (bubbles_is q)]
  simp only [bubbles_apply q]
  exact spin_assoc q q _ _ _ _

/-- **C175** (parquet equations). If the bare interaction is at most (Γ+Λ)/3072, the Bethe–Salpeter equations with the diagrams of
the code have exactly one solution with reducible parts of at most half the interaction, and the iteration of the parquet solver
with any mixing factor approaches it geometrically from every start in this region. -/
theorem c175_parquet {bare : Four} {u : ℝ} (hb : ‖bare‖ ≤ u) (hu : 3072 * u ≤ p.Gam + p.Lam) :
    ∃ sol : Ch → Four, Equations (Invariant.pair p σ) bare sol ∧ ‖sol‖ ≤ u / 2 ∧
      (∀ T, ‖T‖ ≤ u / 2 → Equations (Invariant.pair p σ) bare T → T = sol) ∧
      ∀ s : Bse.Step Four, IsBubble (Invariant.pair p σ) s.pi → s.bare = bare →
        ∀ m, 0 < m → m ≤ 1 → ∀ T, ‖T‖ ≤ u / 2 → ∀ n,
          ‖(Bse.mixed (Bse.iterate s false) m)^[n] T - sol‖ ≤ (1 - m / 12) ^ n * ‖T - sol‖ := by
  obtain ⟨pi, h1, h2, h3⟩ := c175_bubble hp h
  have u0 : 0 ≤ u := (norm_nonneg _).trans hb
  have hw : 256 / (p.Gam + p.Lam) * u ≤ 1 / 12 := by
    rw [div_mul_eq_mul_div, div_le_iff₀ hp]; linarith
  have main : ∀ s : Bse.Step Four, s.pi = pi → s.bare = bare → _ := fun s e e' =>
    Bse.c144_weak s (by rw [e]; exact c175_chain hp h h1) (u := u) (by rw [e']; exact hb) (by rw [e]; exact h3) hw
  obtain ⟨sol, s1, s2, s3, -⟩ := main ⟨bare, pi, 0, 0⟩ rfl rfl
  refine ⟨sol, (h1.parquet _ _).1 s1, s2, fun T hT he => s3 T hT ((h1.parquet _ _).2 he), fun s hs he m m0 m1 T hT n => ?_⟩
  obtain ⟨sol', t1, t2, t3, -, t5⟩ := main s (h2 _ hs) he
  have : sol' = sol := s3 sol' t2 (by
    have := t1
    rw [h2 _ hs, he] at this
    exact this)
  rw [← this]
  exact t5 m m0 m1 T hT n

end

section
variable {p : Par} {J : Set ℝ} {σ dσ : ℝ → SF} (F : SelfFamily p J σ dσ)
include F

omit F in
theorem deriv_congr {E : Type} [NormedAddCommGroup E] [NormedSpace ℝ E] {f g : ℝ → E} {d : E} {l : ℝ} (h : HasDerivAt f d l) (e : g =ᶠ[𝓝 l] f) :
    HasDerivAt g d l := h.congr_of_eventuallyEq e

theorem cont_ret {l : ℝ} (hl : l ∈ J) : ∀ᶠ l' in 𝓝 l, Continuous (ret (scale p l') (σ l')) := by
  filter_upwards [F.isOpen.mem_nhds hl] with l' h
  exact ret_continuous (F.pos l' h) (F.retarded l' h)

theorem cont_dret {l : ℝ} (hl : l ∈ J) : ∀ᶠ l' in 𝓝 l, Continuous (dret (scale p l') (σ l') (dσ l')) := by
  filter_upwards [F.isOpen.mem_nhds hl] with l' h
  have e : dret (scale p l') (σ l') (dσ l') = fun x => -(Complex.I / 2 - (dσ l').1 x) * ret (scale p l') (σ l') x ^ 2 :=
    funext fun x => dret_eq _ _ _ x
  rw [e]
  have h1 : Continuous (ret (scale p l') (σ l')) := ret_continuous (F.pos l' h) (F.retarded l' h)
  have h2 := F.dcont l' h
  fun_prop

theorem dpairs {l : ℝ} (hl : l ∈ J) : ∃ N, Pairs N (Invariant.dpair (scale p l) (σ l) (dσ l)) := by
  have W := weight (p := scale p l) (F.pos l hl) (F.retarded l hl)
  obtain ⟨C, C0, hC⟩ := (smooth F hl).size
  have d0 := hC.self_of_nhds
  have c0 := (cont_ret F hl).self_of_nhds
  have c1 := (cont_dret F hl).self_of_nhds
  rw [dpair_eq (scale p l) (σ l) (dσ l) (F.fdt l hl)]
  exact ⟨_, ((product_below (fac_continuous _) (fac_le _) c0 c1 W.nonneg C0 d0.1 d0.2).add
    (product_below (fac_continuous _) (fac_le _) c1 c0 W.nonneg C0 d0.2 d0.1)).pairs W (by positivity)⟩

/-- **C175** (differentiated bubbles). Let the self-energy depend differentiably on the scale. Then the bubbles do so, too: their
derivative is the bubble with the differentiated pair of propagators, it is continuous, and chains with one differentiated
bubble can be evaluated from either end. -/
theorem c175_deriv : ∃ dpi : ℝ → Ch → Four →L[ℝ] Four →L[ℝ] Four, (∀ l ∈ J, IsBubble (Invariant.dpair (scale p l) (σ l) (dσ l)) (dpi l)) ∧
    ∀ pi : ℝ → Ch → Four →L[ℝ] Four →L[ℝ] Four, (∀ l ∈ J, IsBubble (Invariant.pair (scale p l) (σ l)) (pi l)) →
      (∀ l ∈ J, Chain (pi l) (dpi l)) ∧ (∀ l ∈ J, ∀ r, HasDerivAt (fun l => pi l r) (dpi l r) l) ∧ ∀ r, ContinuousOn (fun l => dpi l r) J := by
  have ed : ∀ l ∈ J, Invariant.dpair (scale p l) (σ l) (dσ l) = product (fac p) (ret (scale p l) (σ l)) (dret (scale p l) (σ l) (dσ l)) +
      product (fac p) (dret (scale p l) (σ l) (dσ l)) (ret (scale p l) (σ l)) := fun l hl => dpair_eq (scale p l) (σ l) (dσ l) (F.fdt l hl)
  have eb : ∀ l, Invariant.pair (scale p l) (σ l) = product (fac p) (ret (scale p l) (σ l)) (ret (scale p l) (σ l)) := fun l => pair_eq (scale p l) (σ l)
  refine ⟨fun l => bubbles (Invariant.dpair (scale p l) (σ l) (dσ l)), fun l hl => ?_, fun pi hpi => ?_⟩
  · obtain ⟨N, q⟩ := dpairs F hl
    exact bubbles_is q
  · have e : ∀ l ∈ J, pi l = bubbles (Invariant.pair (scale p l) (σ l)) := fun l hl =>
      (hpi l hl).unique (bubbles_is (pairs (p := scale p l) (F.pos l hl) (F.retarded l hl)))
    refine ⟨fun l hl => ?_, fun l hl r => ?_, fun r l hl => ?_⟩
    · have q := pairs (p := scale p l) (F.pos l hl) (F.retarded l hl)
      obtain ⟨N, q'⟩ := dpairs F hl
      rw [e l hl]
      constructor <;> intro r A B C <;> simp only [bubbles_apply q, bubbles_apply q']
      · exact spin_assoc q q _ _ _ _
      · exact spin_assoc q q' _ _ _ _
      · exact spin_assoc q' q _ _ _ _
    · have W := weight (p := scale p l) (F.pos l hl) (F.retarded l hl)
      have d := bubbles_deriv W (fac_continuous p) (fac_le p) (cont_ret F hl) (cont_dret F hl) (smooth F hl) r
      rw [← ed l hl] at d
      refine deriv_congr (E := Four →L[ℝ] Four →L[ℝ] Four) d ?_
      filter_upwards [F.isOpen.mem_nhds hl] with l' hl'
      rw [e l' hl', eb]
    · have W := weight (p := scale p l) (F.pos l hl) (F.retarded l hl)
      have d := bubbles_dcont W (fac_continuous p) (fac_le p) (cont_ret F hl) (cont_dret F hl) (smooth F hl) r
      refine ContinuousAt.continuousWithinAt (d.congr ?_)
      filter_upwards [F.isOpen.mem_nhds hl] with l' hl'
      rw [ed l' hl']

variable {P S : Type} [NormedAddCommGroup P] [NormedSpace ℝ P] [NormedAddCommGroup S] [NormedSpace ℝ S]

/-- **C175** (scales). If the right-hand side of the flow uses the bubbles of the code and the interaction is at most (Γ+Λ)/3072, all
that the theorems about the multiloop flow (C174) assume holds. -/
theorem c175_scales {k : ℝ → Known Four P S} {ς : ℝ → S} {bare : Four} {u : ℝ} (u0 : 0 < u) (hb : ‖bare‖ ≤ u) (hu : ∀ l ∈ J, 3072 * u ≤ p.Gam + l)
    (hk : ∀ l ∈ J, (k l).bare = bare) (hpi : ∀ l ∈ J, IsBubble (Invariant.pair (scale p l) (σ l)) (k l).pi)
    (hd : ∀ l ∈ J, IsBubble (Invariant.dpair (scale p l) (σ l) (dσ l)) (Family.dbubble (k l) (ς l))) :
    Family.Scales J k ς bare u (1 / (12 * u)) := by
  obtain ⟨dpi, h1, h2⟩ := c175_deriv F
  obtain ⟨h3, h4, h5⟩ := h2 _ hpi
  have e : ∀ l ∈ J, Family.dbubble (k l) (ς l) = dpi l := fun l hl => (hd l hl).unique (h1 l hl)
  refine ⟨F.isOpen, hk, fun l hl => by rw [e l hl]; exact h3 l hl, fun l hl r => by rw [e l hl]; exact h4 l hl r, fun r => ?_, u0, hb, fun l hl r => ?_, ?_⟩
  · exact (h5 r).congr fun l hl => by rw [e l hl]
  · obtain ⟨pi, b1, b2, b3⟩ := c175_bubble (p := scale p l) (F.pos l hl) (F.retarded l hl)
    rw [b2 _ (hpi l hl)]
    refine (b3 r).trans ?_
    have g : 0 < p.Gam + l := F.pos l hl
    show 256 / (p.Gam + l) ≤ 1 / (12 * u)
    rw [div_le_div_iff₀ g (by positivity)]
    linarith [hu l hl]
  · exact le_of_eq (by field_simp)

/-- **C175** (flow). Then the Bethe–Salpeter equations with the diagrams of the code have one small solution at every scale; it is
continuously differentiable in the scale, and its derivative is the limit of the multiloop sums of the right-hand side. -/
theorem c175_flow (E : MfRG.Eqs (Ch → Four) S) {k : ℝ → Known Four P S} {ς : ℝ → S} {bare : Four} {u : ℝ} (u0 : 0 < u) (hb : ‖bare‖ ≤ u)
    (hu : ∀ l ∈ J, 3072 * u ≤ p.Gam + l) (hk : ∀ l ∈ J, (k l).bare = bare)
    (hpi : ∀ l ∈ J, IsBubble (Invariant.pair (scale p l) (σ l)) (k l).pi)
    (hd : ∀ l ∈ J, IsBubble (Invariant.dpair (scale p l) (σ l) (dσ l)) (Family.dbubble (k l) (ς l))) :
    ∃ red : ℝ → Ch → Four, (∀ l ∈ J, Equations (Invariant.pair (scale p l) (σ l)) bare (red l) ∧ ‖red l‖ ≤ u / 2 ∧
        ∀ T, ‖T‖ ≤ u / 2 → Equations (Invariant.pair (scale p l) (σ l)) bare T → T = red l) ∧
      ContDiffOn ℝ 1 red J ∧ ∀ l ∈ J, HasDerivAt red (deriv red l) l ∧
        (∀ n, ‖deriv red l - Family.loops E k ς n (red l) l‖ ≤ Real.sqrt (265 / 288) ^ n * ‖deriv red l‖) ∧
        Tendsto (fun n => Family.loops E k ς n (red l) l) atTop (𝓝 (deriv red l)) := by
  have H := c175_scales F u0 hb hu hk hpi hd
  obtain ⟨red, r1, r2, r3, -⟩ := Family.c174_solution H
  refine ⟨red, fun l hl => ⟨((hpi l hl).parquet _ _).1 (r1 l hl).1, (r1 l hl).2, fun T hT hT' => ?_⟩, r3, fun l hl => Family.c174_derivative E H r1 r3 hl⟩
  have := r2 (fun m => if m = l then T else red m) (fun m hm => by
    by_cases hml : m = l
    · subst hml
      simp only [if_true]
      exact ⟨((hpi m hm).parquet _ _).2 hT', hT⟩
    · simp only [if_neg hml]
      exact r1 m hm) l hl
  simpa using this

end

/-! A self-energy that does not depend on the scale, for instance the Hartree term, meets the assumptions. -/

theorem constant_family (p : Par) (J : Set ℝ) (hJ : IsOpen J) (hp : ∀ l ∈ J, 0 < p.Gam + l) (σ : SF) (h : RetardedSE σ.1) :
    SelfFamily p J (fun _ => σ) fun _ => (fun _ => 0, fun _ => 0) :=
  ⟨hJ, hp, fun _ _ => h, fun _ _ => continuous_const, fun _ _ => ⟨0, fun v => by simp⟩, fun _ _ v => by simp,
    fun l _ ε ε0 => Eventually.of_forall fun l' v => by simpa using mul_nonneg ε0.le (abs_nonneg _),
    fun l _ ε ε0 => Eventually.of_forall fun l' v => by simpa using ε0.le⟩

theorem retarded_const (U : ℝ) : RetardedSE fun _ => (U : ℂ) :=
  ⟨fun _ => U, |U|, continuousOn_const, differentiableOn_const _, fun _ => rfl, fun z _ => by simp, fun z _ => by simp⟩

theorem bareFour_vertex (w : ℝ) (b : Bool) (c : Freqs.Ch) (s : Bool) (α : Fin 4 → Bool) (ν : Fin 4 → ℝ) :
    asVertex (bareFour w) b c (spinNo s) α ν = Sde.Limit.bareK w b c (spinNo s) α ν := by
  cases s <;> rfl

theorem bareFour_norm (w : ℝ) : ‖bareFour w‖ ≤ |w| := by
  refine (Four.norm_le (abs_nonneg w)).2 fun s => (pi_norm_le_iff_of_nonneg (abs_nonneg w)).2 fun α => ?_
  refine (BoundedContinuousFunction.norm_const_le _).trans ?_
  have b : ∀ a b c d, ‖Sde.Limit.beta w a b c d‖ ≤ |w| := fun a b c d => by
    unfold Sde.Limit.beta; split
    · rw [Complex.norm_real, Real.norm_eq_abs]
    · simp
  cases s
  · exact b _ _ _ _
  · show ‖-Sde.Limit.beta w (α 0) (α 1) (α 2) (α 3)‖ ≤ _
    rw [norm_neg]; exact b _ _ _ _

/-- For every hybridization, scale, temperature and level the parquet equations have one small solution if the interaction is weak enough. -/
example (p : Par) (hp : 0 < p.Gam + p.Lam) (U : ℝ) (hU : 3072 * |U / 2| ≤ p.Gam + p.Lam) : ∃ sol : Ch → Four,
    Equations (Invariant.pair p (fun _ => (U / 2 : ℝ), fun _ => 0)) (bareFour (-(U / 2))) sol ∧ ‖sol‖ ≤ |U / 2| / 2 := by
  obtain ⟨sol, h1, h2, -⟩ := c175_parquet (σ := (fun _ => ((U / 2 : ℝ) : ℂ), fun _ => 0)) hp (retarded_const _)
    (bare := bareFour (-(U / 2))) (u := |U / 2|) ((bareFour_norm _).trans (by rw [abs_neg])) hU
  exact ⟨sol, h1, h2⟩

/-- A right-hand side with the bubbles of the code, the interaction `w` and a constant self-energy. -/
noncomputable def exKnown (p : Par) (w : ℝ) (l : ℝ) : Known Four ℝ ℝ where
  bare := bareFour w
  red := 0
  pi := bubbles (Invariant.pair (scale p l) (fun _ => (w : ℂ), fun _ => 0))
  dpi _ := bubbles (Invariant.dpair (scale p l) (fun _ => (w : ℂ), fun _ => 0) (fun _ => 0, fun _ => 0))
  loop := 0
  ext := 0
  G := 0
  single := 0
  k2 := 0
  k2b := 0

example (p : Par) (w : ℝ) (hw : 0 < w) (hp : 3072 * w ≤ p.Gam) :
    Family.Scales (Set.Ioi 0) (exKnown p w) (fun _ => 0) (bareFour w) w (1 / (12 * w)) := by
  have F := constant_family p (Set.Ioi 0) isOpen_Ioi (fun l (hl : 0 < l) => by linarith) (fun _ => (w : ℂ), fun _ => 0) (retarded_const w)
  refine c175_scales F hw ((bareFour_norm w).trans (le_of_eq (abs_of_pos hw))) (fun l (hl : 0 < l) => by linarith) (fun _ _ => rfl) (fun l hl => ?_) fun l hl => ?_
  · exact bubbles_is (pairs (p := scale p l) (F.pos l hl) (F.retarded l hl))
  · obtain ⟨N, q⟩ := dpairs F hl
    exact bubbles_is q

end Verif.Chains
