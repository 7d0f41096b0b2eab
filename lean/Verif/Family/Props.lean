import Verif.Family.Ideal
import Verif.Accuracy.Props
import Verif.MfRG.Props
import Verif.Multiloop.PropsCase

/-! # C174: the multiloop flow follows the parquet solution -/
namespace Verif.Family

open Keldysh (Ch)
open Multiloop (Known Chain Parquet Coupling others total sides middle)
open Filter Topology Verif.ODE Verif.Accuracy

variable {V P S : Type} [NormedAddCommGroup V] [NormedSpace ℝ V] [NormedAddCommGroup P] [NormedSpace ℝ P]
  [NormedAddCommGroup S] [NormedSpace ℝ S]
variable {J : Set ℝ} {k : ℝ → Known V P S} {σ : ℝ → S} {bare : V} {u x : ℝ}

/-- `red` is the solution of the parquet equations at every scale. -/
def Solves (J : Set ℝ) (k : ℝ → Known V P S) (bare : V) (u : ℝ) (red : ℝ → Ch → V) : Prop :=
  ∀ l ∈ J, Parquet (k l).pi bare (red l) ∧ ‖red l‖ ≤ u / 2

/-- **C174** (solution). At weak coupling the parquet equations have exactly one solution at every scale with reducible parts
of at most half the interaction, and it depends on the scale as smoothly as the bubbles do. -/
theorem c174_solution [CompleteSpace V] (H : Scales J k σ bare u x) :
    ∃ red : ℝ → Ch → V, Solves J k bare u red ∧ (∀ red', Solves J k bare u red' → ∀ l ∈ J, red' l = red l) ∧
      ContDiffOn ℝ 1 red J ∧ ∀ n : WithTop ℕ∞, n ≠ 0 → ContDiffOn ℝ n (fun l => (k l).pi) J → ContDiffOn ℝ n red J := by
  have ex : ∀ l, ∃ s : Ch → V, l ∈ J → Parquet (k l).pi bare s ∧ ‖s‖ ≤ u / 2 ∧ ∀ T, ‖T‖ ≤ u / 2 → Parquet (k l).pi bare T → T = s := by
    intro l
    by_cases hl : l ∈ J
    · obtain ⟨s, h1, h2, h3, -⟩ := Bse.c144_weak (⟨bare, (k l).pi, 0, 0⟩ : Bse.Step V) (H.chain l hl).same H.bare (H.bubble l hl) H.weak
      exact ⟨s, fun _ => ⟨h1, h2, h3⟩⟩
    · exact ⟨0, fun h => absurd h hl⟩
  choose red hred using ex
  have smooth : ∀ n : WithTop ℕ∞, n ≠ 0 → ContDiffOn ℝ n (fun l => (k l).pi) J → ContDiffOn ℝ n red J := fun n hn hc =>
    smooth_of H.bare H.weak H.isOpen H.bubble (fun l hl => (hred l hl).2.1)
      (fun l hl => Bse.c144_solution (⟨bare, (k l).pi, 0, 0⟩ : Bse.Step V) false _ (hred l hl).1) hn hc
  refine ⟨red, fun l hl => ⟨(hred l hl).1, (hred l hl).2.1⟩, fun red' h' l hl => (hred l hl).2.2 _ (h' l hl).2 (h' l hl).1, smooth 1 one_ne_zero ?_, smooth⟩
  refine contDiffOn_pi.2 fun r => ?_
  refine (contDiffOn_one_iff_derivWithin H.isOpen.uniqueDiffOn).2 ⟨fun l hl => (H.deriv l hl r).differentiableAt.differentiableWithinAt, ?_⟩
  refine (H.cont r).congr fun l hl => ?_
  rw [(H.deriv l hl r).hasDerivWithinAt.derivWithin (H.isOpen.uniqueDiffOn l hl)]

/-- Bubbles joined with the full vertex are small near the solution. -/
theorem coupling (H : Scales J k σ bare u x) {l : ℝ} (hl : l ∈ J) {T : Ch → V} {c : ℝ} (hT : ‖T‖ ≤ c * u) (c0 : 0 ≤ c) :
    ‖(withState (k l) T).full‖ ≤ (1 + 3 * c) * u ∧ Coupling (withState (k l) T) ((1 + 3 * c) / 12) := by
  have h := full_bound (k := k l) (x := u) (by rw [H.irred l hl]; exact H.bare) hT
  have h' : ‖(withState (k l) T).full‖ ≤ (1 + 3 * c) * u := h.trans (le_of_eq (by ring))
  refine ⟨h', fun r => ?_⟩
  have x0 : 0 ≤ x := le_trans (by positivity) (H.bubble l hl r)
  have := mul_le_mul (H.bubble l hl r) h' (norm_nonneg _) x0
  refine this.trans ?_
  have := mul_le_mul_of_nonneg_left H.weak (show 0 ≤ 1 + 3 * c by positivity)
  linarith

theorem solution_sums (H : Scales J k σ bare u x) {red : ℝ → Ch → V} (hs : Solves J k bare u red) (hc : ContDiffOn ℝ 1 red J) {l : ℝ} (hl : l ∈ J) :
    HasDerivAt red (deriv red l) l ∧ Sums (withState (k l) (red l)) (σ l) (deriv red l) := by
  have d : HasDerivAt red (deriv red l) l := ((hc.contDiffAt (H.isOpen.mem_nhds hl)).differentiableAt (by norm_num)).hasDerivAt
  refine ⟨d, ?_⟩
  have fam := Multiloop.c139_family (fun l => (k l).pi) (dbubble (k l) (σ l)) bare red (deriv red l) l
    (by filter_upwards [H.isOpen.mem_nhds hl] with m hm using (hs m hm).1) (H.deriv l hl) (fun r => (hasDerivAt_pi.1 d) r)
  have hp : Parquet (withState (k l) (red l)).pi (withState (k l) (red l)).bare (withState (k l) (red l)).red := by
    have := (hs l hl).1
    rw [← H.irred l hl] at this
    exact this
  refine (Multiloop.c139_equivalent (withState (k l) (red l)) (σ l) hp (H.chain l hl) (deriv red l)).2 ?_
  show Multiloop.DerivedBSE (k l).pi (dbubble (k l) (σ l)) (k l).bare (red l) (deriv red l)
  rw [H.irred l hl]
  exact fam

/-- **C174** (right-hand side). Evaluated at the solution, the sum of the loop orders converges to the derivative of the
solution with respect to the scale; with `n` loops the relative error is at most `(265/288)^(n/2)`. -/
theorem c174_derivative (E : MfRG.Eqs (Ch → V) S) (H : Scales J k σ bare u x) {red : ℝ → Ch → V} (hs : Solves J k bare u red) (hc : ContDiffOn ℝ 1 red J)
    {l : ℝ} (hl : l ∈ J) :
    HasDerivAt red (deriv red l) l ∧ (∀ n, ‖deriv red l - loops E k σ n (red l) l‖ ≤ Real.sqrt (265 / 288) ^ n * ‖deriv red l‖) ∧
      Tendsto (fun n => loops E k σ n (red l) l) atTop (𝓝 (deriv red l)) := by
  obtain ⟨d, hD⟩ := solution_sums H hs hc hl
  have cp := (coupling H hl (T := red l) (c := 1 / 2) (by have := (hs l hl).2; linarith) (by norm_num)).2
  have err : ∀ n, ‖deriv red l - loops E k σ n (red l) l‖ ≤ Real.sqrt (265 / 288) ^ n * ‖deriv red l‖ := fun n => by
    have := Multiloop.truncation E (withState (k l) (red l)) (σ l) _ (H.chain l hl) _ hD cp (by norm_num) n
    rwa [show (4 * ((1 + 3 * (1 / 2)) / 12) + 2 * ((1 + 3 * (1 / 2)) / 12) ^ 2 : ℝ) = 265 / 288 by norm_num] at this
  refine ⟨d, err, ?_⟩
  have q0 : 0 ≤ Real.sqrt (265 / 288) := Real.sqrt_nonneg _
  have q1 : Real.sqrt (265 / 288) < 1 := by
    rw [Real.sqrt_lt' one_pos]; norm_num
  have lim := (tendsto_pow_atTop_nhds_zero_of_lt_one q0 q1).mul_const ‖deriv red l‖
  rw [zero_mul] at lim
  refine tendsto_iff_norm_sub_tendsto_zero.2 (squeeze_zero (fun _ => norm_nonneg _) (fun n => ?_) lim)
  rw [norm_sub_rev]
  exact err n

/-- The sum of all loop orders. -/
noncomputable def ideal (k : ℝ → Known V P S) (σ : ℝ → S) (T : Ch → V) (l : ℝ) : Ch → V :=
  open Classical in if h : ∃ D, Sums (withState (k l) T) (σ l) D then h.choose else 0

theorem ideal_spec [CompleteSpace V] (H : Scales J k σ bare u x) {l : ℝ} (hl : l ∈ J) {T : Ch → V} (hT : ‖T‖ ≤ 11 / 20 * u) :
    Sums (withState (k l) T) (σ l) (ideal k σ T l) := by
  have cp := (coupling H hl hT (by norm_num)).2
  have ex : ∃ D, Sums (withState (k l) T) (σ l) D := sums_exists (H.chain l hl) cp (by norm_num)
  rw [ideal, dif_pos ex]
  exact ex.choose_spec

theorem bounded_on {W : Type} [NormedAddCommGroup W] {I : Set ℝ} (hI : IsCompact I) {f : ℝ → W} (hf : ContinuousOn f I) : ∃ y, ∀ l ∈ I, ‖f l‖ ≤ y :=
  hI.exists_bound_of_continuousOn hf

/-- **C174** (flow). A flow from the parquet solution at one scale leads to the parquet solution at every other scale: however
the steps are chosen, the computed vertex is as close to the solution as one likes if there are enough loops and the steps,
the errors of the right-hand side, of the initial state and of what happens after the steps are small enough. -/
theorem c174_flow [CompleteSpace V] (E : MfRG.Eqs (Ch → V) S) (H : Scales J k σ bare u x) {red : ℝ → Ch → V} (hs : Solves J k bare u red)
    {p : FlowParam ℝ} {a b Len : ℝ} (L0 : 0 ≤ Len) (hl : ∀ t ∈ Set.Icc a b, HasDerivWithinAt p.lam (p.dlam t) (Set.Icc a b) t)
    (hd : ContinuousOn p.dlam (Set.Icc a b)) (hm : Set.MapsTo p.lam (Set.Icc a b) J) {ε : ℝ} (ε0 : 0 < ε) :
    ∃ κ > 0, ∃ N : ℕ, ∀ T ∈ tableaux, ∀ (rhs : (Ch → V) → ℝ → Ch → V) (post : ℕ → (Ch → V) → Ch → V) (η t : ℝ) (hs : List ℝ) (start : Ch → V),
      (∀ l ∈ J, ∀ y, ‖y - red l‖ ≤ u / 20 → ∃ n ≥ N, ‖rhs y l - loops E k σ n y l‖ ≤ κ) → 0 ≤ η →
      (∀ n y, (∃ l ∈ J, ‖y - red l‖ ≤ u / 20) → ‖post n y - y‖ ≤ η) → hs.length * η ≤ κ →
      Inside (Set.Icc a b) t hs → (∀ h ∈ hs, |h| ≤ κ) → length hs ≤ Len → ‖start - red (p.lam t)‖ ≤ κ →
      ‖walk T p rhs post 0 t start hs - red (p.lam (t + hs.sum))‖ ≤ ε := by
  obtain ⟨sol, -, hu, hc', -⟩ := c174_solution H
  have hc : ContDiffOn ℝ 1 red J := hc'.congr fun l hl => hu red hs l hl
  set I := p.lam '' Set.Icc a b with hI
  have IJ : I ⊆ J := by rintro _ ⟨t, ht, rfl⟩; exact hm ht
  have cI : IsCompact I := isCompact_Icc.image_of_continuousOn fun t ht => (hl t ht).continuousWithinAt
  have u0 := H.pos
  -- bounds
  obtain ⟨y, hy⟩ : ∃ y, ∀ l ∈ I, ∀ r, ‖dbubble (k l) (σ l) r‖ ≤ y := by
    have b : ∀ r, ∃ y, ∀ l ∈ I, ‖dbubble (k l) (σ l) r‖ ≤ y := fun r => by
      exact bounded_on (W := V →L[ℝ] V →L[ℝ] V) cI ((H.cont r).mono IJ)
    choose y hy using b
    refine ⟨max (y .a) (max (y .p) (y .t)), fun l hl r => (hy r l hl).trans ?_⟩
    cases r
    · exact le_max_left _ _
    · exact (le_max_left _ _).trans (le_max_right _ _)
    · exact (le_max_right _ _).trans (le_max_right _ _)
  have big : ∀ l ∈ J, ∀ y, ‖y - red l‖ ≤ u / 20 → ‖y‖ ≤ 11 / 20 * u := fun l hl y hy => by
    have h1 := norm_add_le (y - red l) (red l)
    rw [sub_add_cancel] at h1
    have := (hs l hl).2
    linarith
  have idl : ∀ l ∈ J, ideal k σ (red l) l = deriv red l := fun l hl => by
    have n : ‖red l‖ ≤ 11 / 20 * u := by have := (hs l hl).2; linarith
    have cp := (coupling H hl n (by norm_num)).2
    exact sums_unique (k := withState (k l) (red l)) (H.chain l hl) cp (by norm_num) (ideal_spec H hl n) (solution_sums H hs hc hl).2
  set g := (1 + 3 * (11 / 20)) * u with hg
  set q : ℝ := 4 * (53 / 240) + 2 * (53 / 240) ^ 2 with hq
  have q1 : q < 1 := by rw [hq]; norm_num
  set K := (6 * y * g + (12 * x + 12 * x ^ 2 * g) * (y * g ^ 2 / (1 - q))) / (1 - q) with hK
  have lip : ∀ l ∈ I, ∀ z, ‖z - red l‖ ≤ u / 20 → ‖ideal k σ z l - ideal k σ (red l) l‖ ≤ K * ‖z - red l‖ := fun l hlI z hz => by
    have hlJ := IJ hlI
    have nr : ‖red l‖ ≤ 11 / 20 * u := by have := (hs l hlJ).2; linarith
    have nz := big l hlJ z hz
    have x0 : 0 ≤ x := le_trans (by positivity) (H.bubble l hlJ .a)
    refine sums_lipschitz (H.chain l hlJ) (H.bubble l hlJ) (hy l hlI) (coupling H hlJ nz (by norm_num)).1 (coupling H hlJ nr (by norm_num)).1 ?_ q1
      (ideal_spec H hlJ nz) (ideal_spec H hlJ nr)
    show 4 * (x * g) + 2 * (x * g) ^ 2 ≤ q
    have w : x * g ≤ 53 / 240 := by rw [hg]; have := H.weak; linarith
    have w0 : 0 ≤ x * g := by positivity
    have w2 : (x * g) ^ 2 ≤ (53 / 240) ^ 2 := pow_le_pow_left₀ w0 w 2
    rw [hq]
    linarith
  obtain ⟨κ, κ0, h⟩ := c170_convergence (p := p) (f := ideal k σ) (y := red) (J := I) (a := a) (b := b) (r := u / 20) (K := max K 0) (S := Len) (by positivity)
    (le_max_right _ _) L0 (fun l hlI => by rw [idl l (IJ hlI)]; exact (solution_sums H hs hc (IJ hlI)).1.hasDerivWithinAt)
    (((hc.continuousOn_deriv_of_isOpen H.isOpen le_rfl).mono IJ).congr fun l hlI => idl l (IJ hlI))
    (fun l hlI z hz => (lip l hlI z hz).trans (mul_le_mul_of_nonneg_right (le_max_left _ _) (norm_nonneg _))) hl hd (Set.mapsTo_image _ _) ε0
  -- enough loops
  have s0 : 0 ≤ Real.sqrt q := Real.sqrt_nonneg _
  have s1 : Real.sqrt q < 1 := by rw [Real.sqrt_lt' one_pos]; linarith
  set M := max (y * g ^ 2 / (1 - q)) 0 with hM
  obtain ⟨N, hN⟩ : ∃ N : ℕ, ∀ n ≥ N, Real.sqrt q ^ n * M ≤ κ / 2 := by
    have := ((tendsto_pow_atTop_nhds_zero_of_lt_one s0 s1).mul_const M)
    rw [zero_mul] at this
    obtain ⟨N, hN⟩ := eventually_atTop.1 (this.eventually (gt_mem_nhds (half_pos κ0)))
    exact ⟨N, fun n hn => (hN n hn).le⟩
  refine ⟨κ / 2, by linarith, N, fun T hT rhs post η t steps start hr η0 hp hn hin hsm hlen hst => ?_⟩
  refine h T hT rhs post η t steps start (fun l hlI z hz => ?_) η0 (fun n z ⟨l, hlI, h⟩ => hp n z ⟨l, IJ hlI, h⟩) (by linarith) hin
    (fun h hh => (hsm h hh).trans (by linarith)) hlen (hst.trans (by linarith))
  have hlJ := IJ hlI
  obtain ⟨n, hnN, hn'⟩ := hr l hlJ z hz
  have nz := big l hlJ z hz
  have cp := coupling H hlJ nz (by norm_num)
  have X : (1 + 3 * (11 / 20)) / 12 = (53 / 240 : ℝ) := by norm_num
  rw [X] at cp
  have sp := ideal_spec H hlJ nz
  have tr := Multiloop.truncation E (withState (k l) z) (σ l) _ (H.chain l hlJ) _ sp cp.2 q1 n
  have bd : ‖ideal k σ z l‖ ≤ M := by
    refine (sums_bound (k := withState (k l) z) (H.chain l hlJ) cp.2 q1 sp).trans (le_trans ?_ (le_max_left _ _))
    refine div_le_div_of_nonneg_right ?_ (by linarith)
    have y0 : 0 ≤ y := le_trans (by positivity) (hy l hlI .a)
    refine (pi_norm_le_iff_of_nonneg (by positivity)).2 fun r => ?_
    refine (Multiloop.norm_bubble (dbubble (k l) (σ l) r) _ _).trans ?_
    have g0 : 0 ≤ g := by positivity
    rw [mul_assoc, pow_two]
    exact mul_le_mul (hy l hlI r) (mul_le_mul cp.1 cp.1 (norm_nonneg _) g0) (by positivity) y0
  have t3 : ‖ideal k σ z l - loops E k σ n z l‖ ≤ κ / 2 := tr.trans ((mul_le_mul_of_nonneg_left bd (by positivity)).trans (hN n hnN))
  have t4 := norm_add_le (rhs z l - loops E k σ n z l) (loops E k σ n z l - ideal k σ z l)
  rw [sub_add_sub_cancel, norm_sub_rev (loops E k σ n z l)] at t4
  linarith

/-- Without tolerances the driver of the right-hand side adds up the configured number of loop orders. -/
theorem pass_eq (E : MfRG.Eqs (Ch → V) S) (hA : ∀ v z, E.absV v = some z → 0 ≤ z) (hR : ∀ v w z, E.relV v w = some z → 0 ≤ z) {c : MfRG.Cfg}
    (ha : c.tolAbs ≤ 0) (hr : c.tolRel ≤ 0) {n : ℕ} (hn : 1 ≤ n) (hc : c.nloops = n) (y : Ch → V) (l : ℝ) :
    (MfRG.vertexPass ((withState (k l) y).eqs E) c (σ l)).1 = loops E k σ n y l := by
  obtain ⟨m, hm, he⟩ := MfRG.c67_pass ((withState (k l) y).eqs E) c (σ l) (by omega)
  have no : ∀ i, ¬ MfRG.Small ((withState (k l) y).eqs E) c (σ l) i := by
    rintro i (⟨z, h1, h2⟩ | ⟨z, h1, h2⟩)
    · have := hA _ z h1
      linarith
    · have := hR _ _ z h1
      linarith
  have : m = n := by
    rcases hm.2.2.2 with h | h
    · rw [hc] at h; exact_mod_cast h
    · exact absurd h.2 (no m)
  rw [he, this, loops]

/-- **C174** (driver). The same for the right-hand side as the code evaluates it, with enough loops and without tolerances for
leaving out higher orders, started from the parquet solution. -/
theorem c174_driver [CompleteSpace V] (E : MfRG.Eqs (Ch → V) S) (hA : ∀ v z, E.absV v = some z → 0 ≤ z) (hR : ∀ v w z, E.relV v w = some z → 0 ≤ z)
    (H : Scales J k σ bare u x) {red : ℝ → Ch → V} (hs : Solves J k bare u red) {p : FlowParam ℝ} {a b Len : ℝ} (L0 : 0 ≤ Len)
    (hl : ∀ t ∈ Set.Icc a b, HasDerivWithinAt p.lam (p.dlam t) (Set.Icc a b) t) (hd : ContinuousOn p.dlam (Set.Icc a b))
    (hm : Set.MapsTo p.lam (Set.Icc a b) J) {ε : ℝ} (ε0 : 0 < ε) :
    ∃ κ > 0, ∃ N : ℤ, ∀ T ∈ tableaux, ∀ (c : MfRG.Cfg) (t : ℝ) (hs : List ℝ), N ≤ c.nloops → c.tolAbs ≤ 0 → c.tolRel ≤ 0 →
      Inside (Set.Icc a b) t hs → (∀ h ∈ hs, |h| ≤ κ) → length hs ≤ Len →
      ‖walk T p (fun y l => (MfRG.vertexPass ((withState (k l) y).eqs E) c (σ l)).1) (fun _ => id) 0 t (red (p.lam t)) hs - red (p.lam (t + hs.sum))‖ ≤ ε := by
  obtain ⟨κ, κ0, N, h⟩ := c174_flow E H hs L0 hl hd hm ε0
  refine ⟨κ, κ0, max N 1, fun T hT c t steps hN ha hr hin hsm hlen => ?_⟩
  have n1 : 1 ≤ c.nloops := (le_max_right _ _).trans hN
  have n2 : (N : ℤ) ≤ c.nloops := (le_max_left _ _).trans hN
  refine h T hT _ _ 0 t steps _ (fun l _ y _ => ⟨c.nloops.toNat, by omega, ?_⟩) le_rfl (fun _ _ _ => by simp) (by rw [mul_zero]; exact κ0.le) hin hsm hlen
    (by rw [sub_self, norm_zero]; exact κ0.le)
  rw [pass_eq E hA hR ha hr (n := c.nloops.toNat) (by omega) (by omega), sub_self, norm_zero]
  exact κ0.le

/-! ### Example -/

/-- Vertices are numbers, and the bubbles grow linearly with the scale. -/
noncomputable def exScales (l : ℝ) : Known ℝ ℝ ℝ where
  bare := 1 / 2
  red := fun _ => 0
  pi := fun _ => (l / 10) • ContinuousLinearMap.mul ℝ ℝ
  dpi := fun p _ => p • ContinuousLinearMap.mul ℝ ℝ
  loop := ContinuousLinearMap.mul ℝ ℝ
  ext := 0
  G := 2
  single := 1 / 10
  k2 := (1 / 3 : ℝ) • ContinuousLinearMap.id ℝ ℝ
  k2b := (1 / 4 : ℝ) • ContinuousLinearMap.id ℝ ℝ

theorem exD (l s : ℝ) (r : Ch) : dbubble (exScales l) s r = (1 / 10 : ℝ) • ContinuousLinearMap.mul ℝ ℝ := by
  show ((1 / 10 : ℝ) + (0 : ℝ →L[ℝ] ℝ) s) • ContinuousLinearMap.mul ℝ ℝ = _
  simp

theorem example_scales : Scales (Set.Ioo 0 1) exScales (fun _ => (0 : ℝ)) (1 / 2) (1 / 2) (1 / 10) where
  isOpen := isOpen_Ioo
  irred _ _ := rfl
  chain l _ := by
    have hp : ∀ (r : Ch) (a b : ℝ), (exScales l).pi r a b = l / 10 * (a * b) := fun r a b => by simp [exScales]
    have hd : ∀ (r : Ch) (a b : ℝ), dbubble (exScales l) (0 : ℝ) r a b = 1 / 10 * (a * b) := fun r a b => by rw [exD]; simp
    constructor <;> intro r a b c <;> simp only [hp, hd] <;> ring
  deriv l _ r := by
    rw [exD]
    have h : HasDerivAt (fun l : ℝ => l / 10) (1 / 10) l := (hasDerivAt_id' l).div_const 10
    exact Multiloop.smul_deriv (ContinuousLinearMap.mul ℝ ℝ) h
  cont r := by
    simp only [exD]
    exact continuousOn_const
  pos := by norm_num
  bare := by norm_num
  bubble l hl r := by
    show ‖(l / 10) • ContinuousLinearMap.mul ℝ ℝ‖ ≤ _
    refine ContinuousLinearMap.opNorm_le_bound₂ _ (by norm_num) fun a b => ?_
    have : ((l / 10) • ContinuousLinearMap.mul ℝ ℝ) a b = l / 10 * (a * b) := by simp
    rw [this, norm_mul, norm_mul, Real.norm_of_nonneg (by have := hl.1; positivity), mul_assoc]
    have h1 := hl.2
    have h2 : 0 ≤ ‖a‖ * ‖b‖ := by positivity
    nlinarith
  weak := by norm_num

/-- The hypotheses hold, and the solution is not zero. -/
example : ∃ red : ℝ → Ch → ℝ, Solves (Set.Ioo 0 1) exScales (1 / 2) (1 / 2) red ∧ red (1 / 2) .a ≠ 0 ∧
    ∀ E : MfRG.Eqs (Ch → ℝ) ℝ, Tendsto (fun n => loops E exScales (fun _ => 0) n (red (1 / 2)) (1 / 2)) atTop (𝓝 (deriv red (1 / 2))) := by
  obtain ⟨red, h, -, hc, -⟩ := c174_solution example_scales
  have m : (1 / 2 : ℝ) ∈ Set.Ioo (0 : ℝ) 1 := ⟨by norm_num, by norm_num⟩
  refine ⟨red, h, fun h0 => ?_, fun E => (c174_derivative E example_scales h hc m).2.2⟩
  have e := ((h _ m).1 .a).1
  have e' := ((h _ m).1 .p).1
  have b := (norm_le_pi_norm (red (1 / 2)) .t).trans (h _ m).2
  rw [h0] at e
  simp only [exScales, others, total, h0, _root_.smul_apply, smul_eq_mul, ContinuousLinearMap.mul_apply', zero_add] at e e'
  set p := red (1 / 2) .p
  set t := red (1 / 2) .t
  have z : 1 / 2 + (p + t) = 0 := by
    have : (1 / 2 + (p + t)) ^ 2 = 0 := by linarith
    exact pow_eq_zero_iff (two_ne_zero) |>.1 this
  rw [z, mul_zero, mul_zero] at e'
  rw [Real.norm_eq_abs, abs_le] at b
  linarith [b.1]

end Verif.Family
