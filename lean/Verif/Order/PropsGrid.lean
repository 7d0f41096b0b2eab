import Verif.Order.Props
import Verif.GridMap.Props
import Mathlib.Analysis.SpecialFunctions.Sqrt
import Mathlib.Analysis.SpecialFunctions.Pow.Deriv

/-! # C173: the parametrisations of the flow -/
namespace Verif.Order
open Filter Topology Verif.ODE Verif.Accuracy Verif.GridMap

variable {E : Type} [NormedAddCommGroup E] [NormedSpace ℝ E] {J I M : Set ℝ} {p p' : FlowParam ℝ} {f : E → ℝ → E} {y : ℝ → E}

/-- Two parametrisations that agree between the start and the end of the step give the same step. -/
theorem step_congr {T : Tableau} (H : Fit T) (hI : I.OrdConnected) (hp : ∀ t ∈ I, p.lam t = p'.lam t ∧ p.dlam t = p'.dlam t) {t h : ℝ} (ht : t ∈ I) (hh : t + h ∈ I) (x : E) :
    step T p f x t h = step T p' f x t h := by
  have nodes : ∀ i < T.stages, t + h * (T.getNode i : ℝ) ∈ I := fun i hi => by
    have c0 : (0 : ℝ) ≤ (T.getNode i : ℝ) := by exact_mod_cast H.low i hi
    have c1 : ((T.getNode i : ℚ) : ℝ) ≤ 1 := by exact_mod_cast H.high i hi
    refine hI.uIcc_subset ht hh ?_
    rw [Set.mem_uIcc]
    rcases le_total 0 h with h0 | h0
    · exact Or.inl ⟨by nlinarith, by nlinarith⟩
    · exact Or.inr ⟨by nlinarith, by nlinarith⟩
  have st : ∀ i < T.stages, (stage T (field p f) (t, x) h i).2 = (stage T (field p' f) (t, x) h i).2 := by
    intro i
    induction i using Nat.strong_induction_on with
    | _ i ih =>
      intro hi
      rw [stage_snd H p f t x h hi, stage_snd H p' f t x h hi, (hp _ (nodes i hi)).1, (hp _ (nodes i hi)).2]
      congr 2
      congr 2
      refine Finset.sum_congr rfl fun j hj => ?_
      have := Finset.mem_range.1 hj
      rw [ih j this (by omega)]
  rw [step_after H, step_after H, after, after]
  simp only [Prod.snd_add, Prod.smul_snd, Prod.snd_sum]
  congr 2
  exact Finset.sum_congr rfl fun i hi => by rw [st i (Finset.mem_range.1 hi)]

theorem walk_congr {T : Tableau} (H : Fit T) (hI : I.OrdConnected) (hp : ∀ t ∈ I, p.lam t = p'.lam t ∧ p.dlam t = p'.dlam t) (post : ℕ → E → E) (hs : List ℝ) :
    ∀ (n : ℕ) (t : ℝ) (x : E), Inside I t hs → walk T p f post n t x hs = walk T p' f post n t x hs := by
  induction hs with
  | nil => intro n t x _; rfl
  | cons h hs ih =>
    intro n t x hin
    rw [walk, walk, step_congr H hI hp hin.1 (inside_head hin.2), ih _ _ _ hin.2]

/-- **C173** (parametrisations). The exponential, logarithmic and linear parametrisations meet the conditions wherever the
flow itself is smooth in Λ. -/
theorem c173_parametrisations (S : ℝ) (hM : IsOpen M) (hy : ∀ Λ ∈ M, HasDerivAt y (f (y Λ) Λ) Λ) (hf : ∀ Λ ∈ M, ContDiffAt ℝ 6 (fun z : E × ℝ => f z.1 z.2) (y Λ, Λ)) :
    Smooth (expLam ⁻¹' M) ⟨expLam, expD⟩ f y ∧ Smooth (logLam S ⁻¹' M) ⟨logLam S, logD S⟩ f y ∧ Smooth (linLam ⁻¹' M) ⟨linLam, linD⟩ f y := by
  have d := c74_flow_parametrisations S
  have c1 : Continuous expLam := continuous_iff_continuousAt.2 fun t => (d t).1.continuousAt
  have c2 : Continuous (logLam S) := continuous_iff_continuousAt.2 fun t => (d t).2.1.continuousAt
  have c3 : Continuous linLam := continuous_iff_continuousAt.2 fun t => (d t).2.2.1.continuousAt
  refine ⟨⟨hM.preimage c1, fun t _ => (d t).1, ?_, fun t ht => hy _ ht, fun t ht => hf _ ht⟩,
    ⟨hM.preimage c2, fun t _ => (d t).2.1, ?_, fun t ht => hy _ ht, fun t ht => hf _ ht⟩,
    ⟨hM.preimage c3, fun t _ => (d t).2.2.1, ?_, fun t ht => hy _ ht, fun t ht => hf _ ht⟩⟩
  · refine ContDiff.contDiffOn ?_
    unfold expD
    fun_prop
  · refine ContDiff.contDiffOn ?_
    have : logD S = fun t => -S * Real.exp (Real.log 10 * -t) * Real.log 10 := by
      funext t
      rw [logD, Real.rpow_def_of_pos (by norm_num)]
    rw [this]
    fun_prop
  · exact contDiffOn_const

/-- The default parametrisation without the sign. -/
noncomputable def evenLam (t : ℝ) : ℝ := 5 * (t * t) / √(1 - t * t)
/-- Its derivative. -/
noncomputable def evenD (t : ℝ) : ℝ := 5 * t * (2 - t * t) / (√(1 - t * t) * √(1 - t * t) * √(1 - t * t))

theorem even_eq {t : ℝ} (h0 : 0 ≤ t) : sqrtLam t = evenLam t ∧ sqrtD t = evenD t := by
  constructor
  · rcases h0.eq_or_lt with rfl | h
    · simp [sqrtLam, evenLam]
    · have : sgn t = 1 := by unfold sgn; rw [if_pos h.le, if_neg (by linarith)]; norm_num
      rw [sqrtLam, this, evenLam]; ring
  · rw [sqrtD, abs_of_nonneg h0, evenD]

theorem even_deriv {t : ℝ} (h1 : -1 < t) (h2 : t < 1) : HasDerivAt evenLam (evenD t) t := by
  have q : 0 < 1 - t * t := by nlinarith
  have s := Real.sqrt_pos.2 q
  have hq : HasDerivAt (fun t : ℝ => 1 - t * t) (-(2 * t)) t := by
    have := ((hasDerivAt_id' t).mul (hasDerivAt_id' t)).const_sub 1
    refine this.congr_deriv ?_
    ring
  have hs := hq.sqrt q.ne'
  have hn : HasDerivAt (fun t : ℝ => 5 * (t * t)) (10 * t) t := by
    have := ((hasDerivAt_id' t).mul (hasDerivAt_id' t)).const_mul 5
    refine this.congr_deriv ?_
    ring
  have := hn.div hs s.ne'
  refine this.congr_deriv ?_
  have e : √(1 - t * t) ^ 2 = 1 - t * t := Real.sq_sqrt q.le
  rw [evenD]
  set w := √(1 - t * t) with hw
  have tt : t * t = 1 - w ^ 2 := by linarith
  rw [tt]
  field_simp
  ring

theorem even_smooth : ContDiffOn ℝ 6 evenD (Set.Ioo (-1) 1) := by
  intro t ht
  have q : 0 < 1 - t * t := by nlinarith [ht.1, ht.2]
  have s : ContDiffAt ℝ 6 (fun t : ℝ => √(1 - t * t)) t := ContDiffAt.sqrt (by fun_prop) q.ne'
  refine ContDiffAt.contDiffWithinAt ?_
  unfold evenD
  refine ContDiffAt.div (by fun_prop) ((s.mul s).mul s) ?_
  have := Real.sqrt_pos.2 q
  positivity

/-- **C173** (default). With the parametrisation that the solver uses by default, which has a kink in its second derivative
at zero, the order holds for all flows towards smaller or larger `t` that stay in `0 ≤ t < 1`, including those that end at
Λ = 0, if the flow is smooth in Λ in a neighbourhood of the interval. -/
theorem c173_default {b : ℝ} (hb : b < 1) (hM : IsOpen M) (hy : ∀ Λ ∈ M, HasDerivAt y (f (y Λ) Λ) Λ) (hf : ∀ Λ ∈ M, ContDiffAt ℝ 6 (fun z : E × ℝ => f z.1 z.2) (y Λ, Λ))
    (hIM : ∀ t ∈ Set.Icc 0 b, sqrtLam t ∈ M) {T : Tableau} {q : ℕ} (hT : (T, q) ∈ orders) {Len : ℝ} (L0 : 0 ≤ Len) :
    ∃ C, ∃ κ > 0, ∀ (δ t : ℝ) (hs : List ℝ), Inside (Set.Icc 0 b) t hs → (∀ h ∈ hs, |h| ≤ δ) → 0 ≤ δ → δ ≤ κ → length hs ≤ Len →
      ‖walk T ⟨sqrtLam, sqrtD⟩ f (fun _ => id) 0 t (y (sqrtLam t)) hs - y (sqrtLam (t + hs.sum))‖ ≤ C * δ ^ q := by
  have cont : ContinuousOn evenLam (Set.Ioo (-1) 1) := fun t ht => (even_deriv ht.1 ht.2).continuousAt.continuousWithinAt
  have S : Smooth (Set.Ioo (-1) 1 ∩ evenLam ⁻¹' M) ⟨evenLam, evenD⟩ f y :=
    ⟨cont.isOpen_inter_preimage isOpen_Ioo hM, fun t ht => even_deriv ht.1.1 ht.1.2, even_smooth.mono Set.inter_subset_left, fun t ht => hy _ ht.2, fun t ht => hf _ ht.2⟩
  obtain ⟨C, κ, κ0, h⟩ := c173_flow S hT (isCompact_Icc (a := 0) (b := b)) (fun t ht => ⟨⟨by linarith [ht.1], by linarith [ht.2]⟩, by
    have := hIM t ht
    rwa [(even_eq ht.1).1] at this⟩) one_pos L0
  refine ⟨C, κ, κ0, fun δ t hs hin hsm δ0 hδ hlen => ?_⟩
  have H := (mem_orders hT).1
  have tI := inside_head hin
  have eI : t + hs.sum ∈ Set.Icc 0 b := by
    clear hsm hlen tI
    induction hs generalizing t with
    | nil => rw [List.sum_nil, add_zero]; exact hin
    | cons a hs ih => rw [List.sum_cons, ← add_assoc]; exact ih _ hin.2
  rw [walk_congr (p' := ⟨evenLam, evenD⟩) H Set.ordConnected_Icc (fun t ht => even_eq ht.1) (fun _ => id) hs 0 t _ hin, (even_eq tI.1).1, (even_eq eI.1).1]
  have := h (fun _ => id) 0 δ t hs (y (evenLam t)) le_rfl (fun n x _ => by simp) (by rw [mul_zero]; exact κ0.le) hin hsm δ0 hδ hlen (by rw [sub_self, norm_zero]; exact κ0.le)
  simpa using this

/-- Non-vacuity: the decaying flow `y' = -y²`, which is not linear, from Λ(3/4) to Λ = 0. -/
example : ∃ C, ∃ κ > 0, ∀ (δ t : ℝ) (hs : List ℝ), Inside (Set.Icc 0 (3 / 4)) t hs → (∀ h ∈ hs, |h| ≤ δ) → 0 ≤ δ → δ ≤ κ → length hs ≤ 1 →
    ‖walk cashKarp ⟨sqrtLam, sqrtD⟩ (fun x _ => -(x * x)) (fun _ => id) 0 t (1 / (1 + sqrtLam t)) hs - 1 / (1 + sqrtLam (t + hs.sum))‖ ≤ C * δ ^ 5 := by
  refine c173_default (y := fun Λ => 1 / (1 + Λ)) (M := Set.Ioi (-1)) (f := fun x _ => -(x * x)) (T := cashKarp) (q := 5) (by norm_num) isOpen_Ioi (fun Λ hΛ => ?_) (fun Λ _ => by fun_prop) (fun t ht => ?_)
    (by simp [orders]) zero_le_one
  · have h : (1 : ℝ) + Λ ≠ 0 := by have : (-1 : ℝ) < Λ := hΛ; linarith
    have := ((hasDerivAt_id' Λ).const_add 1).inv h
    simp only [one_div]
    refine this.congr_deriv ?_
    field_simp
  · have q : 0 < 1 - t * t := by nlinarith [ht.1, ht.2]
    have s := Real.sqrt_pos.2 q
    rw [(even_eq ht.1).1, evenLam]
    have : 0 ≤ 5 * (t * t) / √(1 - t * t) := div_nonneg (by nlinarith [mul_self_nonneg t]) s.le
    exact lt_of_lt_of_le (by norm_num) this

end Verif.Order
