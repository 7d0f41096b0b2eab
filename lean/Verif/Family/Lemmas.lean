import Verif.Family.Spec
import Verif.Bse.PropsConverge
import Mathlib.Analysis.Calculus.ImplicitContDiff
import Mathlib.Analysis.Normed.Ring.Units

/-! Differentiable dependence of the weak-coupling solution on the bubbles. -/
namespace Verif.Family

open Keldysh (Ch)
open Multiloop (Known Chain Parquet others total)
open Filter Topology

section Generic

variable {X Y : Type} [NormedAddCommGroup X] [NormedSpace ℝ X] [NormedAddCommGroup Y] [NormedSpace ℝ Y]

theorem line {F : X × Y → Y} {p : X} {T : Y} (hd : DifferentiableAt ℝ F (p, T)) (H : Y) :
    HasDerivAt (fun s : ℝ => F (p, T + s • H)) (fderiv ℝ F (p, T) (0, H)) 0 := by
  have hl : HasDerivAt (fun s : ℝ => ((p, T + s • H) : X × Y)) (0, H) 0 := by
    have h1 : HasDerivAt (fun s : ℝ => T + s • H) ((1 : ℝ) • H) 0 := ((hasDerivAt_id' (0 : ℝ)).smul_const H).const_add T
    rw [one_smul] at h1
    exact (hasDerivAt_const (0 : ℝ) p).prodMk h1
  have hd' : HasFDerivAt F (fderiv ℝ F (p, T)) ((p, T + (0 : ℝ) • H) : X × Y) := by simpa using hd.hasFDerivAt
  exact hd'.comp_hasDerivAt (0 : ℝ) hl

variable [CompleteSpace X] [CompleteSpace Y]

omit [CompleteSpace X] in
/-- The equation for the reducible parts can be solved for them. -/
theorem invertible {F : X × Y → Y} {p : X} {T : Y} (hd : DifferentiableAt ℝ F (p, T)) {q : ℝ} (q0 : 0 ≤ q) (q1 : q < 1)
    (hq : ∀ H, ‖fderiv ℝ F (p, T) (0, H)‖ ≤ q * ‖H‖) :
    (fderiv ℝ (fun z : X × Y => z.2 - F z) (p, T) ∘L .inr ℝ X Y).IsInvertible := by
  set L : Y →L[ℝ] Y := fderiv ℝ F (p, T) ∘L .inr ℝ X Y with hL
  have n : ‖L‖ < 1 := lt_of_le_of_lt (L.opNorm_le_bound q0 hq) q1
  have e : fderiv ℝ (fun z : X × Y => z.2 - F z) (p, T) ∘L .inr ℝ X Y = 1 - L := by
    have hd' : HasFDerivAt (fun z : X × Y => z.2 - F z) (ContinuousLinearMap.snd ℝ X Y - fderiv ℝ F (p, T)) (p, T) :=
      hasFDerivAt_snd.sub hd.hasFDerivAt
    rw [hd'.fderiv]
    ext1 H
    rfl
  rw [e]
  set U := Units.oneSub L n
  refine ⟨ContinuousLinearEquiv.unitsEquiv ℝ Y U, ?_⟩
  ext1 H
  rfl

/-- Fixed points that depend continuously on a parameter depend smoothly on it. -/
theorem fixed_smooth {F : X × Y → Y} {p : ℝ → X} {sol : ℝ → Y} {l : ℝ} {n : WithTop ℕ∞} (hn : n ≠ 0) (hF : ContDiff ℝ n F) {q : ℝ} (q0 : 0 ≤ q) (q1 : q < 1)
    (hq : ∀ H, ‖fderiv ℝ F (p l, sol l) (0, H)‖ ≤ q * ‖H‖) (hfix : ∀ᶠ m in 𝓝 l, F (p m, sol m) = sol m) (pc : ContDiffAt ℝ n p l) (cont : ContinuousAt sol l) :
    ContDiffAt ℝ n sol l := by
  have cdf : ContDiffAt ℝ n (fun z : X × Y => z.2 - F z) (p l, sol l) := (contDiff_snd.sub hF).contDiffAt
  have inv := invertible (hF.differentiable hn _) q0 q1 hq
  have ev := cdf.eventually_apply_eq_iff_implicitFunction hn inv
  have tend : Tendsto (fun m => (p m, sol m)) (𝓝 l) (𝓝 (p l, sol l)) := (pc.continuousAt.prodMk cont).tendsto
  have eq : ∀ᶠ m in 𝓝 l, sol m = cdf.implicitFunction hn inv (p m) := by
    filter_upwards [tend.eventually ev, hfix] with m hm hmJ
    refine (hm.1 ?_).symm
    show sol m - F (p m, sol m) = sol l - F (p l, sol l)
    rw [hmJ, hfix.self_of_nhds, sub_self, sub_self]
  have cimp : ContDiffAt ℝ n (cdf.implicitFunction hn inv) (p l) := cdf.contDiffAt_implicitFunction hn inv
  exact (ContDiffAt.comp l cimp pc).congr_of_eventuallyEq eq

end Generic

variable {V : Type} [NormedAddCommGroup V] [NormedSpace ℝ V]

/-- Bubbles of the three channels. -/
abbrev Bub (V : Type) [NormedAddCommGroup V] [NormedSpace ℝ V] := Ch → V →L[ℝ] V →L[ℝ] V

/-- The averaged step as a function of bubbles and reducible parts. -/
noncomputable def avg (bare : V) (z : Bub V × (Ch → V)) : Ch → V := Bse.iterate ⟨bare, z.1, 0, 0⟩ false z.2

theorem avg_apply (bare : V) (z : Bub V × (Ch → V)) (r : Ch) : avg bare z r =
    (1 / 2 : ℝ) • (z.1 r (bare + others r z.2) (bare + total z.2) + z.1 r (bare + total z.2) (bare + others r z.2)) :=
  (Bse.c144_step ⟨bare, z.1, 0, 0⟩ 0 0 z.2 r).2.2

theorem others_contDiff {n : WithTop ℕ∞} (r : Ch) : ContDiff ℝ n (others r : (Ch → V) → V) := by
  cases r
  · show ContDiff ℝ n fun T : Ch → V => T .p + T .t
    fun_prop
  · show ContDiff ℝ n fun T : Ch → V => T .a + T .t
    fun_prop
  · show ContDiff ℝ n fun T : Ch → V => T .a + T .p
    fun_prop

theorem total_contDiff {n : WithTop ℕ∞} : ContDiff ℝ n (total : (Ch → V) → V) := by
  show ContDiff ℝ n fun T : Ch → V => T .a + T .p + T .t
  fun_prop

theorem avg_contDiff (bare : V) {n : WithTop ℕ∞} : ContDiff ℝ n (avg bare) := by
  refine contDiff_pi.2 fun r => ?_
  simp only [avg_apply]
  have o : ContDiff ℝ n fun z : Bub V × (Ch → V) => bare + others r z.2 := contDiff_const.add ((others_contDiff r).comp contDiff_snd)
  have t : ContDiff ℝ n fun z : Bub V × (Ch → V) => bare + total z.2 := contDiff_const.add (total_contDiff.comp contDiff_snd)
  have p : ContDiff ℝ n fun z : Bub V × (Ch → V) => z.1 r := by fun_prop
  exact (((p.clm_apply o).clm_apply t).add ((p.clm_apply t).clm_apply o)).const_smul (1 / 2 : ℝ)

/-- The step changes by at most eleven twelfths of a small change of the reducible parts. -/
theorem avg_line {bare : V} {u x : ℝ} (hb : ‖bare‖ ≤ u) {p : Bub V} (hp : ∀ r, ‖p r‖ ≤ x) (hw : x * u ≤ 1 / 12) {T : Ch → V} (hT : ‖T‖ ≤ u / 2)
    (H : Ch → V) : ‖fderiv ℝ (avg bare) (p, T) (0, H)‖ ≤ 11 / 12 * ‖H‖ := by
  have u0 : 0 ≤ u := (norm_nonneg _).trans hb
  have x0 : 0 ≤ x := le_trans (by positivity) (hp .a)
  have hc := line ((avg_contDiff (n := 1) bare).differentiable (by norm_num) (p, T)) H
  refine (pi_norm_le_iff_of_nonneg (by positivity)).2 fun r => ?_
  have hr := (hasDerivAt_pi.1 hc) r
  simp only [avg_apply] at hr
  have hs : ∀ c, HasDerivAt (fun s : ℝ => (T + s • H) c) (H c) 0 := fun c => by
    have h1 : HasDerivAt (fun s : ℝ => T c + s • H c) ((1 : ℝ) • H c) 0 := ((hasDerivAt_id' (0 : ℝ)).smul_const (H c)).const_add (T c)
    rwa [one_smul] at h1
  have ht : HasDerivAt (fun s : ℝ => bare + total (T + s • H)) (total H) 0 := (((hs .a).add (hs .p)).add (hs .t)).const_add bare
  have ho : HasDerivAt (fun s : ℝ => bare + others r (T + s • H)) (others r H) 0 := by
    cases r
    · exact ((hs .p).add (hs .t)).const_add bare
    · exact ((hs .a).add (hs .t)).const_add bare
    · exact ((hs .a).add (hs .p)).const_add bare
  have h1 := (((p r).hasFDerivAt.comp_hasDerivAt (0 : ℝ) ho).clm_apply ht)
  have h2 := (((p r).hasFDerivAt.comp_hasDerivAt (0 : ℝ) ht).clm_apply ho)
  have e := hr.unique ((h1.add h2).const_smul (1 / 2 : ℝ))
  simp only [Function.comp, zero_smul, add_zero] at e
  rw [e, norm_smul, Real.norm_of_nonneg (by norm_num : (0 : ℝ) ≤ 1 / 2)]
  have nI : ‖bare + others r T‖ ≤ 2 * u := (norm_add_le _ _).trans (by have := Multiloop.norm_others r T; linarith)
  have nG : ‖bare + total T‖ ≤ 5 / 2 * u := (norm_add_le _ _).trans (by have := Bse.norm_total T; linarith)
  have b (a c : V) {A C : ℝ} (ha : ‖a‖ ≤ A) (hc : ‖c‖ ≤ C) : ‖p r a c‖ ≤ x * A * C := by
    have A0 := (norm_nonneg _).trans ha
    refine (Multiloop.norm_bubble (p r) a c).trans ?_
    gcongr
    exact hp r
  have k1 := b _ _ (Multiloop.norm_others r H) nG
  have k2 := b _ _ nI (Bse.norm_total H)
  have k3 := b _ _ (Bse.norm_total H) nI
  have k4 := b _ _ nG (Multiloop.norm_others r H)
  have n1 := norm_add_le (p r (others r H) (bare + total T) + p r (bare + others r T) (total H)) (p r (total H) (bare + others r T) + p r (bare + total T) (others r H))
  have n2 := norm_add_le (p r (others r H) (bare + total T)) (p r (bare + others r T) (total H))
  have n3 := norm_add_le (p r (total H) (bare + others r T)) (p r (bare + total T) (others r H))
  have f : x * u * ‖H‖ ≤ 1 / 12 * ‖H‖ := mul_le_mul_of_nonneg_right hw (norm_nonneg _)
  nlinarith

variable [CompleteSpace V]

/-- **Solutions depend smoothly on the bubbles.** -/
theorem smooth_of {bare : V} {u x : ℝ} (hb : ‖bare‖ ≤ u) (hw : x * u ≤ 1 / 12) {p : ℝ → Bub V} {sol : ℝ → Ch → V} {J : Set ℝ} (hJ : IsOpen J)
    (hp : ∀ l ∈ J, ∀ r, ‖p l r‖ ≤ x) (hs : ∀ l ∈ J, ‖sol l‖ ≤ u / 2) (hfix : ∀ l ∈ J, avg bare (p l, sol l) = sol l) {n : WithTop ℕ∞} (hn : n ≠ 0)
    (hc : ContDiffOn ℝ n p J) : ContDiffOn ℝ n sol J := by
  intro l hl
  have near := hJ.mem_nhds hl
  have pc : ContDiffAt ℝ n p l := hc.contDiffAt near
  -- continuity
  have cont : ContinuousAt sol l := by
    have key : ∀ᶠ m in 𝓝 l, ‖sol m - sol l‖ ≤ 12 * ‖avg bare (p m, sol l) - avg bare (p l, sol l)‖ := by
      filter_upwards [near] with m hm
      have wk := Bse.weak_of_product ⟨bare, p m, 0, 0⟩ hb (hp m hm) hw
      have c := (Bse.c144_contraction _ wk (sol m) (sol l) (hs m hm) (hs l hl)).2
      have c' : ‖avg bare (p m, sol m) - avg bare (p m, sol l)‖ ≤ 11 / 12 * ‖sol m - sol l‖ := by
        refine c.trans (mul_le_mul_of_nonneg_right ?_ (norm_nonneg _))
        nlinarith
      rw [hfix m hm] at c'
      have t := norm_add_le (sol m - avg bare (p m, sol l)) (avg bare (p m, sol l) - avg bare (p l, sol l))
      rw [sub_add_sub_cancel, hfix l hl] at t
      rw [hfix l hl]
      linarith
    have lim : Tendsto (fun m => 12 * ‖avg bare (p m, sol l) - avg bare (p l, sol l)‖) (𝓝 l) (𝓝 0) := by
      have c1 : ContinuousAt (fun m => avg bare (p m, sol l)) l :=
        ContinuousAt.comp (g := avg bare) (f := fun m => (p m, sol l)) (avg_contDiff (n := 1) bare).continuous.continuousAt
          (pc.continuousAt.prodMk continuousAt_const)
      have := ((c1.sub continuousAt_const).norm.const_mul (12 : ℝ) : ContinuousAt (fun m => 12 * ‖avg bare (p m, sol l) - avg bare (p l, sol l)‖) l)
      have h := this.tendsto
      simpa using h
    exact tendsto_iff_norm_sub_tendsto_zero.2 (squeeze_zero' (Eventually.of_forall fun _ => norm_nonneg _) key lim)
  exact (fixed_smooth hn (avg_contDiff bare) (by norm_num : (0 : ℝ) ≤ 11 / 12) (by norm_num) (fun H => avg_line hb (hp l hl) hw (hs l hl) H)
    (by filter_upwards [near] with m hm using hfix m hm) pc cont).contDiffWithinAt

end Verif.Family
