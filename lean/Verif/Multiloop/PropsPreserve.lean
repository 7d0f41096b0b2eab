import Verif.Multiloop.PropsError
import Mathlib.Analysis.ODE.Gronwall
import Mathlib.Analysis.Calculus.Deriv.Comp

/-!
# C143: a solution of the multiloop flow that starts on the parquet equations stays on them

C139 shows that the right-hand side is the derivative of a family of parquet solutions.  Here the flow itself is followed:
the vertex is any differentiable function of the flow parameter whose derivative is the right-hand side, with no assumption
that it solves the parquet equations anywhere but at the start.
-/
namespace Verif.Multiloop

open Keldysh (Ch)
open Filter Set

variable {V P S : Type} [NormedAddCommGroup V] [NormedSpace ℝ V] [NormedAddCommGroup P] [NormedSpace ℝ P]
  [NormedAddCommGroup S] [NormedSpace ℝ S]

/-- What is missing in the Bethe–Salpeter equations with the irreducible vertex on the left. -/
noncomputable def defectL (pi : Ch → V →L[ℝ] V →L[ℝ] V) (bare : V) (red : Ch → V) : Ch → V := fun r =>
  red r - pi r (bare + others r red) (bare + total red)

/-- What is missing with the irreducible vertex on the right. -/
noncomputable def defectR (pi : Ch → V →L[ℝ] V →L[ℝ] V) (bare : V) (red : Ch → V) : Ch → V := fun r =>
  red r - pi r (bare + total red) (bare + others r red)

theorem parquet_iff (pi : Ch → V →L[ℝ] V →L[ℝ] V) (bare : V) (red : Ch → V) :
    Parquet pi bare red ↔ defectL pi bare red = 0 ∧ defectR pi bare red = 0 := by
  constructor
  · intro h
    exact ⟨funext fun r => sub_eq_zero.2 (h r).1, funext fun r => sub_eq_zero.2 (h r).2⟩
  · rintro ⟨h1, h2⟩ r
    exact ⟨sub_eq_zero.1 (congrFun h1 r), sub_eq_zero.1 (congrFun h2 r)⟩

/-- A flow between two values of the parameter: the bubbles change with the differentiated bubbles that enter the
right-hand side, the fully irreducible part does not change, and the reducible parts change with `D`. -/
structure Flow (k : ℝ → Known V P S) (σ : ℝ → S) (D : ℝ → Ch → V) (a b : ℝ) : Prop where
  bare : ∀ l m, (k l).bare = (k m).bare
  chain : ∀ l ∈ Icc a b, Chain (k l).pi ((k l).dpi ((k l).katanin (σ l)))
  bubble : ∀ l ∈ Icc a b, ∀ r, HasDerivAt (fun x => (k x).pi r) ((k l).dpi ((k l).katanin (σ l)) r) l
  vertex : ∀ l ∈ Icc a b, ∀ r, HasDerivAt (fun x => (k x).red r) (D l r) l

/-- The right-hand side with all loop orders, up to an error `δ`. -/
def Driven (k : Known V P S) (σ : S) (D δ : Ch → V) : Prop := D = k.one σ + sides k D + middle k D + δ

/-- One channel, irreducible vertex on the left. -/
theorem channel_left (p q : V →L[ℝ] V →L[ℝ] V) (same : ∀ a b c, p (p a b) c = p a (p b c))
    (right : ∀ a b c, q (p a b) c = p a (q b c)) {Γ I g dI D δ : V} (hΓ : Γ = I + g)
    (hD : D = q Γ Γ + (p dI Γ + p Γ dI) + p Γ (p dI Γ) + δ) :
    D - (p dI Γ + q I Γ + p I (dI + D)) =
      q (g - p I Γ) Γ + p (g - p I Γ) dI + p (g - p I Γ) (p dI Γ) + (δ - p I δ) := by
  have ex (f : V →L[ℝ] V →L[ℝ] V) (x : V) : f Γ x = f I x + f g x := by
    conv_lhs => rw [hΓ, map_add, _root_.add_apply]
  have e1 : p I D = q (p I Γ) Γ + (p I (p dI Γ) + p (p I Γ) dI) + p (p I Γ) (p dI Γ) + p I δ := by
    rw [hD, map_add, map_add, map_add, map_add, right, same, same]
  rw [map_add, e1]
  conv_lhs => rw [hD, ex q Γ, ex p dI, ex p (p dI Γ)]
  simp only [map_sub, _root_.sub_apply]
  abel

/-- One channel, irreducible vertex on the right. -/
theorem channel_right (p q : V →L[ℝ] V →L[ℝ] V) (same : ∀ a b c, p (p a b) c = p a (p b c))
    (left : ∀ a b c, p (q a b) c = q a (p b c)) {Γ I g dI D δ : V} (hΓ : Γ = I + g)
    (hD : D = q Γ Γ + (p dI Γ + p Γ dI) + p Γ (p dI Γ) + δ) :
    D - (p Γ dI + q Γ I + p (dI + D) I) =
      q Γ (g - p Γ I) + p dI (g - p Γ I) + p Γ (p dI (g - p Γ I)) + (δ - p δ I) := by
  have ex (f : V →L[ℝ] V →L[ℝ] V) (x : V) : f x Γ = f x I + f x g := by
    conv_lhs => rw [hΓ, map_add]
  have e1 : p D I = q Γ (p Γ I) + (p dI (p Γ I) + p (p Γ dI) I) + p Γ (p dI (p Γ I)) + p δ I := by
    rw [hD]
    simp only [map_add, _root_.add_apply, left, same]
  rw [map_add, _root_.add_apply, e1]
  conv_lhs => rw [hD, ex q Γ, ex p dI]
  simp only [map_sub, map_add, same]
  abel

section
variable {k : ℝ → Known V P S} {σ : ℝ → S} {D : ℝ → Ch → V} {a b : ℝ}

theorem hasDerivAt_full (h : Flow k σ D a b) {l : ℝ} (hl : l ∈ Icc a b) :
    HasDerivAt (fun x => (k x).bare + total (k x).red) (total (D l)) l := by
  have e : (fun x => (k x).bare + total (k x).red) = fun x => (k l).bare + total (k x).red :=
    funext fun x => by rw [h.bare x l]
  rw [e]
  exact (((h.vertex l hl .a).add (h.vertex l hl .p)).add (h.vertex l hl .t)).const_add _

theorem hasDerivAt_irred (h : Flow k σ D a b) {l : ℝ} (hl : l ∈ Icc a b) (r : Ch) :
    HasDerivAt (fun x => (k x).bare + others r (k x).red) (others r (D l)) l := by
  have e : (fun x => (k x).bare + others r (k x).red) = fun x => (k l).bare + others r (k x).red :=
    funext fun x => by rw [h.bare x l]
  rw [e]
  cases r
  · exact ((h.vertex l hl .p).add (h.vertex l hl .t)).const_add _
  · exact ((h.vertex l hl .a).add (h.vertex l hl .t)).const_add _
  · exact ((h.vertex l hl .a).add (h.vertex l hl .p)).const_add _

/-- C143: along a flow, whether or not the vertex solves the parquet equations, what is missing in them changes by
bubbles that contain what is missing, and by the error of the right-hand side. -/
theorem c143_defect (h : Flow k σ D a b) {l : ℝ} (hl : l ∈ Icc a b) (δ : Ch → V) (hD : Driven (k l) (σ l) (D l) δ)
    (r : Ch) :
    (HasDerivAt (fun x => defectL (k x).pi (k x).bare (k x).red r)
      ((k l).dpi ((k l).katanin (σ l)) r (defectL (k l).pi (k l).bare (k l).red r) (k l).full +
        (k l).pi r (defectL (k l).pi (k l).bare (k l).red r) (others r (D l)) +
        (k l).pi r (defectL (k l).pi (k l).bare (k l).red r) ((k l).pi r (others r (D l)) (k l).full) +
        (δ r - (k l).pi r ((k l).bare + others r (k l).red) (δ r))) l) ∧
    (HasDerivAt (fun x => defectR (k x).pi (k x).bare (k x).red r)
      ((k l).dpi ((k l).katanin (σ l)) r (k l).full (defectR (k l).pi (k l).bare (k l).red r) +
        (k l).pi r (others r (D l)) (defectR (k l).pi (k l).bare (k l).red r) +
        (k l).pi r (k l).full ((k l).pi r (others r (D l)) (defectR (k l).pi (k l).bare (k l).red r)) +
        (δ r - (k l).pi r (δ r) ((k l).bare + others r (k l).red))) l) := by
  have hc := h.chain l hl
  have hf := hasDerivAt_full h hl
  have hi := hasDerivAt_irred h hl r
  have hb := h.bubble l hl r
  have hΓ : (k l).full = ((k l).bare + others r (k l).red) + (k l).red r := by
    rw [Known.full, total_eq r]; abel
  have hDr : D l r = (k l).dpi ((k l).katanin (σ l)) r (k l).full (k l).full +
      ((k l).pi r (others r (D l)) (k l).full + (k l).pi r (k l).full (others r (D l))) +
      (k l).pi r (k l).full ((k l).pi r (others r (D l)) (k l).full) + δ r := by
    have := congrFun hD r
    rw [← c139_central (k l) _ hc]
    exact this
  constructor
  · refine ((h.vertex l hl r).sub ((hb.clm_apply hi).clm_apply hf)).congr_deriv ?_
    have := channel_left ((k l).pi r) _ (hc.same r) (hc.right r) hΓ hDr
    rw [← total_eq r] at this
    show _ = _
    rw [show (k l).red r - (k l).pi r ((k l).bare + others r (k l).red) (k l).full =
      defectL (k l).pi (k l).bare (k l).red r from rfl] at this
    rw [← this]
    simp only [_root_.add_apply, Known.full]
    abel
  · refine ((h.vertex l hl r).sub ((hb.clm_apply hf).clm_apply hi)).congr_deriv ?_
    have := channel_right ((k l).pi r) _ (hc.same r) (hc.left r) hΓ hDr
    rw [← total_eq r] at this
    rw [show (k l).red r - (k l).pi r (k l).full ((k l).bare + others r (k l).red) =
      defectR (k l).pi (k l).bare (k l).red r from rfl] at this
    rw [← this]
    simp only [_root_.add_apply, Known.full]
    abel

/-- Growth in both directions. -/
theorem gronwall_down {W : Type} [NormedAddCommGroup W] [NormedSpace ℝ W] {f f' : ℝ → W} {K ε : ℝ}
    (hf : ∀ x ∈ Icc a b, HasDerivAt f (f' x) x) (hb : ∀ x ∈ Icc a b, ‖f' x‖ ≤ K * ‖f x‖ + ε) (x : ℝ) (hx : x ∈ Icc a b) :
    ‖f x‖ ≤ gronwallBound ‖f b‖ K ε (b - x) := by
  have hn : ∀ y ∈ Icc (-b) (-a), -y ∈ Icc a b := fun y hy => ⟨by linarith [hy.2], by linarith [hy.1]⟩
  have hd : ∀ y ∈ Icc (-b) (-a), HasDerivAt (fun y => f (-y)) (-f' (-y)) y := fun y hy => by
    have := (hf (-y) (hn y hy)).scomp y (hasDerivAt_neg' y)
    simpa [Function.comp_def] using this
  have := norm_le_gronwallBound_of_norm_deriv_right_le (f := fun y => f (-y)) (f' := fun y => -f' (-y)) (δ := ‖f b‖) (K := K)
    (ε := ε) (a := -b) (b := -a) (fun y hy => (hd y hy).continuousAt.continuousWithinAt)
    (fun y hy => (hd y ⟨hy.1, hy.2.le⟩).hasDerivWithinAt) (by simp)
    (fun y hy => by rw [norm_neg]; exact hb (-y) (hn y ⟨hy.1, hy.2.le⟩)) (-x) ⟨by linarith [hx.2], by linarith [hx.1]⟩
  simpa [sub_neg_eq_add, add_comm, sub_eq_add_neg] using this

/-- Bounds on what enters the right-hand side between two values of the parameter. -/
structure Bounds (k : ℝ → Known V P S) (σ : ℝ → S) (D : ℝ → Ch → V) (a b g d x y : ℝ) : Prop where
  full : ∀ l ∈ Icc a b, ‖(k l).full‖ ≤ g
  irred : ∀ l ∈ Icc a b, ∀ r, ‖(k l).bare + others r (k l).red‖ ≤ g
  rate : ∀ l ∈ Icc a b, ‖D l‖ ≤ d
  bubble : ∀ l ∈ Icc a b, ∀ r, ‖(k l).pi r‖ ≤ x
  change : ∀ l ∈ Icc a b, ∀ r, ‖(k l).dpi ((k l).katanin (σ l)) r‖ ≤ y

/-- The rate at which what is missing can grow. -/
def growth (g d x y : ℝ) : ℝ := y * g + 2 * x * d + 2 * x ^ 2 * d * g

theorem norm_step {p q : V →L[ℝ] V →L[ℝ] V} {Γ I dI ρ δ : V} {g d x y ε : ℝ} (hp : ‖p‖ ≤ x) (hq : ‖q‖ ≤ y) (hΓ : ‖Γ‖ ≤ g)
    (hI : ‖I‖ ≤ g) (hd : ‖dI‖ ≤ 2 * d) (hδ : ‖δ‖ ≤ ε) :
    ‖q ρ Γ + p ρ dI + p ρ (p dI Γ) + (δ - p I δ)‖ ≤ growth g d x y * ‖ρ‖ + (1 + x * g) * ε ∧
    ‖q Γ ρ + p dI ρ + p Γ (p dI ρ) + (δ - p δ I)‖ ≤ growth g d x y * ‖ρ‖ + (1 + x * g) * ε := by
  have hx : 0 ≤ x := le_trans (by positivity) hp
  have hy : 0 ≤ y := le_trans (by positivity) hq
  have hg : 0 ≤ g := (norm_nonneg _).trans hΓ
  have hd0 : 0 ≤ 2 * d := (norm_nonneg _).trans hd
  have hε : 0 ≤ ε := (norm_nonneg _).trans hδ
  have hρ := norm_nonneg ρ
  have b (f : V →L[ℝ] V →L[ℝ] V) {u v : V} {c s t : ℝ} (hf : ‖f‖ ≤ c) (hu : ‖u‖ ≤ s) (hv : ‖v‖ ≤ t) :
      ‖f u v‖ ≤ c * s * t := by
    have hc0 : 0 ≤ c := le_trans (by positivity) hf
    have hs0 : 0 ≤ s := (norm_nonneg _).trans hu
    refine (norm_bubble f u v).trans ?_
    gcongr
  constructor
  · refine (norm_add_le _ _).trans ?_
    have h1 := b q hq (le_refl ‖ρ‖) hΓ
    have h2 := b p hp (le_refl ‖ρ‖) hd
    have h3 := b p hp (le_refl ‖ρ‖) (b p hp hd hΓ)
    have h4 := b p hp hI hδ
    have h5 := norm_add₃_le (a := q ρ Γ) (b := p ρ dI) (c := p ρ (p dI Γ))
    have h6 := norm_sub_le δ (p I δ)
    unfold growth
    nlinarith
  · refine (norm_add_le _ _).trans ?_
    have h1 := b q hq hΓ (le_refl ‖ρ‖)
    have h2 := b p hp hd (le_refl ‖ρ‖)
    have h3 := b p hp hΓ (b p hp hd (le_refl ‖ρ‖))
    have h4 := b p hp hδ hI
    have h5 := norm_add₃_le (a := q Γ ρ) (b := p dI ρ) (c := p Γ (p dI ρ))
    have h6 := norm_sub_le δ (p δ I)
    unfold growth
    nlinarith

/-- C143, stability: what is missing in the parquet equations is bounded, everywhere on the flow from the upper to the
lower value of the parameter, by what is missing at the start and by the error of the right-hand side. -/
theorem c143_stable (h : Flow k σ D a b) {g d x y ε : ℝ} (hB : Bounds k σ D a b g d x y) (δ : ℝ → Ch → V)
    (hD : ∀ l ∈ Icc a b, Driven (k l) (σ l) (D l) (δ l)) (hδ : ∀ l ∈ Icc a b, ‖δ l‖ ≤ ε) (l : ℝ) (hl : l ∈ Icc a b) (r : Ch) :
    ‖defectL (k l).pi (k l).bare (k l).red r‖ ≤
      gronwallBound ‖defectL (k b).pi (k b).bare (k b).red r‖ (growth g d x y) ((1 + x * g) * ε) (b - l) ∧
    ‖defectR (k l).pi (k l).bare (k l).red r‖ ≤
      gronwallBound ‖defectR (k b).pi (k b).bare (k b).red r‖ (growth g d x y) ((1 + x * g) * ε) (b - l) := by
  have hd : ∀ l ∈ Icc a b, ‖others r (D l)‖ ≤ 2 * d := fun l hl => (norm_others r (D l)).trans (by linarith [hB.rate l hl])
  have hs (l : ℝ) (hl : l ∈ Icc a b) (ρ : V) := norm_step (ρ := ρ) (hB.bubble l hl r) (hB.change l hl r) (hB.full l hl)
    (hB.irred l hl r) (hd l hl) ((norm_le_pi_norm (δ l) r).trans (hδ l hl))
  exact ⟨gronwall_down (fun l hl => (c143_defect h hl (δ l) (hD l hl) r).1) (fun l hl => (hs l hl _).1) l hl,
    gronwall_down (fun l hl => (c143_defect h hl (δ l) (hD l hl) r).2) (fun l hl => (hs l hl _).2) l hl⟩

/-- On a compact interval continuity gives the bounds. -/
theorem exists_bounds (h : Flow k σ D a b) (hcD : ∀ r, ContinuousOn (fun l => D l r) (Icc a b))
    (hcP : ∀ r, ContinuousOn (fun l => (k l).dpi ((k l).katanin (σ l)) r) (Icc a b)) :
    ∃ g d x y, Bounds k σ D a b g d x y := by
  have ub {W : Type} [NormedAddCommGroup W] (f : Ch → ℝ → W) (hf : ∀ r, ContinuousOn (f r) (Icc a b)) :
      ∃ c, 0 ≤ c ∧ ∀ l ∈ Icc a b, ∀ r, ‖f r l‖ ≤ c := by
    obtain ⟨ca, ha⟩ := isCompact_Icc.exists_bound_of_continuousOn (hf .a)
    obtain ⟨cp, hp⟩ := isCompact_Icc.exists_bound_of_continuousOn (hf .p)
    obtain ⟨ct, ht⟩ := isCompact_Icc.exists_bound_of_continuousOn (hf .t)
    refine ⟨max (max ca cp) (max ct 0), le_max_of_le_right (le_max_right _ _), fun l hl r => ?_⟩
    cases r
    · exact (ha l hl).trans (le_max_of_le_left (le_max_left _ _))
    · exact (hp l hl).trans (le_max_of_le_left (le_max_right _ _))
    · exact (ht l hl).trans (le_max_of_le_right (le_max_left _ _))
  obtain ⟨g1, -, h1⟩ := ub (fun _ l => (k l).bare + total (k l).red)
    (fun _ l hl => (hasDerivAt_full h hl).continuousAt.continuousWithinAt)
  obtain ⟨g2, -, h2⟩ := ub (fun r l => (k l).bare + others r (k l).red)
    (fun r l hl => (hasDerivAt_irred h hl r).continuousAt.continuousWithinAt)
  obtain ⟨d, d0, h3⟩ := ub (fun r l => D l r) hcD
  obtain ⟨x, -, h4⟩ := ub (fun r l => (k l).pi r) (fun r l hl => (h.bubble l hl r).continuousAt.continuousWithinAt)
  obtain ⟨y, -, h5⟩ := ub (fun r l => (k l).dpi ((k l).katanin (σ l)) r) hcP
  exact ⟨max g1 g2, d, x, y, fun l hl => (h1 l hl .a).trans (le_max_left _ _),
    fun l hl r => (h2 l hl r).trans (le_max_right _ _), fun l hl => (pi_norm_le_iff_of_nonneg d0).2 (h3 l hl), h4, h5⟩

variable (E : MfRG.Eqs (Ch → V) S)

theorem driven_of_limit (k : Known V P S) (σ : S) (D : Ch → V)
    (hD : Tendsto (fun n => MfRG.sumTo (k.eqs E) σ n) atTop (nhds D)) : Driven k σ D 0 := by
  have h2 := (tendsto_add_atTop_iff_nat 2).2 hD
  have h1 := (tendsto_add_atTop_iff_nat 1).2 hD
  have h3 : Tendsto (fun n => k.one σ + sides k (MfRG.sumTo (k.eqs E) σ (n + 1)) + middle k (MfRG.sumTo (k.eqs E) σ n))
      atTop (nhds (k.one σ + sides k D + middle k D)) :=
    ((tendsto_const_nhds).add (((continuous_sides k).tendsto D).comp h1)).add
      (((continuous_middle k).tendsto D).comp hD)
  simp only [sumTo_rec] at h2
  unfold Driven
  rw [add_zero]
  exact tendsto_nhds_unique h2 h3

/-- C143: a vertex that flows with the converged right-hand side and solves the parquet equations at the start solves
them at every value of the flow parameter. -/
theorem c143_preserve (h : Flow k σ D a b) (hcD : ∀ r, ContinuousOn (fun l => D l r) (Icc a b))
    (hcP : ∀ r, ContinuousOn (fun l => (k l).dpi ((k l).katanin (σ l)) r) (Icc a b))
    (hD : ∀ l ∈ Icc a b, Tendsto (fun n => MfRG.sumTo ((k l).eqs E) (σ l) n) atTop (nhds (D l)))
    (hp : Parquet (k b).pi (k b).bare (k b).red) (l : ℝ) (hl : l ∈ Icc a b) :
    Parquet (k l).pi (k l).bare (k l).red := by
  obtain ⟨g, d, x, y, hB⟩ := exists_bounds h hcD hcP
  rw [parquet_iff] at hp ⊢
  have hs := c143_stable h hB (fun _ => 0) (fun l hl => driven_of_limit E (k l) (σ l) (D l) (hD l hl))
    (ε := 0) (fun _ _ => by simp) l hl
  rw [hp.1, hp.2] at hs
  simp only [Pi.zero_apply, norm_zero, mul_zero, gronwallBound_ε0_δ0, norm_le_zero_iff] at hs
  exact ⟨funext fun r => (hs r).1, funext fun r => (hs r).2⟩

theorem driven_of_sum (k : Known V P S) (σ : S) (dpi : Ch → V →L[ℝ] V →L[ℝ] V) (hc : Chain k.pi dpi) {c η : ℝ}
    (hx : Coupling k c) (n : ℕ) (h1 : ‖MfRG.contribution (k.eqs E) σ (n + 1)‖ ≤ η)
    (h2 : ‖MfRG.contribution (k.eqs E) σ (n + 2)‖ ≤ η) :
    ∃ δ, Driven k σ (MfRG.sumTo (k.eqs E) σ (n + 2)) δ ∧ ‖δ‖ ≤ 4 * (c + c ^ 2) * η := by
  have c0 : 0 ≤ c := le_trans (by positivity) (hx .a)
  have hr := c139_residual E k σ n
  refine ⟨-(sides k (MfRG.contribution (k.eqs E) σ (n + 2)) + middle k (MfRG.contribution (k.eqs E) σ (n + 2)) +
      middle k (MfRG.contribution (k.eqs E) σ (n + 1))), ?_, ?_⟩
  · unfold Driven
    rw [← hr]
    abel
  · rw [norm_neg]
    refine (norm_add₃_le).trans ?_
    have b1 := norm_sides k hx (MfRG.contribution (k.eqs E) σ (n + 2))
    have b2 := norm_middle k dpi hc hx (MfRG.contribution (k.eqs E) σ (n + 2))
    have b3 := norm_middle k dpi hc hx (MfRG.contribution (k.eqs E) σ (n + 1))
    have b4 := mul_le_mul_of_nonneg_left h2 (by positivity : 0 ≤ 4 * c)
    have b5 := mul_le_mul_of_nonneg_left h2 (by positivity : 0 ≤ 2 * c ^ 2)
    have b6 := mul_le_mul_of_nonneg_left h1 (by positivity : 0 ≤ 2 * c ^ 2)
    linarith

/-- C143, finite loop order: a vertex that flows with the vertex derivative of the right-hand side, summed up to the loop
order at which the configuration stops, and solves the parquet equations at the start, leaves them by no more than
the last two loop orders allow. -/
theorem c143_truncated (h : Flow k σ D a b) {g d x y η : ℝ} (hB : Bounds k σ D a b g d x y) (c : MfRG.Cfg) (hn : 2 ≤ c.nloops)
    (hD : ∀ l ∈ Icc a b, D l = (MfRG.vertexPass ((k l).eqs E) c (σ l)).1)
    (hη : ∀ l ∈ Icc a b, ∀ n, MfRG.StopsAt ((k l).eqs E) c (σ l) (n + 2) →
      ‖MfRG.contribution ((k l).eqs E) (σ l) (n + 1)‖ ≤ η ∧ ‖MfRG.contribution ((k l).eqs E) (σ l) (n + 2)‖ ≤ η)
    (hp : Parquet (k b).pi (k b).bare (k b).red) (l : ℝ) (hl : l ∈ Icc a b) (r : Ch) :
    ‖(k l).red r - (k l).pi r ((k l).bare + others r (k l).red) (k l).full‖ ≤
      gronwallBound 0 (growth g d x y) ((1 + x * g) * (4 * (x * g + (x * g) ^ 2) * η)) (b - l) ∧
    ‖(k l).red r - (k l).pi r (k l).full ((k l).bare + others r (k l).red)‖ ≤
      gronwallBound 0 (growth g d x y) ((1 + x * g) * (4 * (x * g + (x * g) ^ 2) * η)) (b - l) := by
  have hcoup : ∀ l ∈ Icc a b, Coupling (k l) (x * g) := fun l hl r => by
    have hx0 : 0 ≤ x := le_trans (by positivity) (hB.bubble l hl r)
    exact mul_le_mul (hB.bubble l hl r) (hB.full l hl) (norm_nonneg _) hx0
  have hex : ∀ l, ∃ δ, l ∈ Icc a b → Driven (k l) (σ l) (D l) δ ∧ ‖δ‖ ≤ 4 * (x * g + (x * g) ^ 2) * η := by
    intro l
    by_cases hl : l ∈ Icc a b
    · obtain ⟨m, hm, he⟩ := MfRG.c67_pass ((k l).eqs E) c (σ l) (by omega)
      obtain ⟨n, rfl⟩ : ∃ n, m = n + 2 := by
        refine ⟨m - 2, ?_⟩
        rcases hm.2.2.2 with h3 | h3
        · omega
        · omega
      obtain ⟨h1, h2⟩ := hη l hl n hm
      obtain ⟨δ, hδ⟩ := driven_of_sum E (k l) (σ l) _ (h.chain l hl) (hcoup l hl) n h1 h2
      refine ⟨δ, fun _ => ?_⟩
      rw [hD l hl, he]
      exact hδ
    · exact ⟨0, fun h => absurd h hl⟩
  choose δ hδ using hex
  have hs := c143_stable h hB δ (fun l hl => (hδ l hl).1) (fun l hl => (hδ l hl).2) l hl r
  rw [parquet_iff] at hp
  rw [hp.1, hp.2] at hs
  simp only [Pi.zero_apply, norm_zero] at hs
  exact hs

end

end Verif.Multiloop
