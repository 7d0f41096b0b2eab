import Verif.Accuracy.Lemmas
import Verif.GridMap.Props
import Mathlib.Topology.UniformSpace.HeineCantor
import Mathlib.Analysis.Calculus.Deriv.Comp

/-! # C170: the computed flow approaches the flow -/
namespace Verif.Accuracy
open Verif.ODE

variable {E : Type} [NormedAddCommGroup E] [NormedSpace ℝ E]
variable {I : Set ℝ} {p : FlowParam ℝ} {rhs : E → ℝ → E} {Y D : ℝ → E} {L ρ r ω δ : ℝ}

theorem length_nonneg (hs : List ℝ) : 0 ≤ length hs := List.sum_nonneg fun x hx => by
  obtain ⟨h, -, rfl⟩ := List.mem_map.1 hx
  exact abs_nonneg h

theorem length_cons (h : ℝ) (hs : List ℝ) : length (h :: hs) = |h| + length hs := by simp [length]

theorem bound_cons {η e : ℝ} (L0 : 0 ≤ L) (ρ0 : 0 ≤ ρ) (ω0 : 0 ≤ ω) (η0 : 0 ≤ η) (e0 : 0 ≤ e) (h : ℝ) (hs : List ℝ) :
    bound L ρ ω η (e + 2 * L * |h| * e + |h| * (4 * ω + 2 * ρ) + η) hs ≤ bound L ρ ω η e (h :: hs) := by
  have h0 := abs_nonneg h
  have S0 := length_nonneg hs
  have x1 : 1 + 2 * L * |h| ≤ Real.exp (2 * L * |h|) := by have := Real.add_one_le_exp (2 * L * |h|); linarith
  have x0 : 0 ≤ 2 * L * |h| := by positivity
  unfold bound
  rw [length_cons, show 2 * L * (|h| + length hs) = 2 * L * |h| + 2 * L * length hs by ring, Real.exp_add, List.length_cons]
  push_cast
  set X := Real.exp (2 * L * |h|)
  have p0 := Real.exp_pos (2 * L * length hs)
  set Z := Real.exp (2 * L * length hs)
  rw [mul_comm X Z, mul_assoc Z X]
  refine mul_le_mul_of_nonneg_left ?_ p0.le
  set w := 4 * ω + 2 * ρ with hw
  have w0 : 0 ≤ w := by rw [hw]; positivity
  set N : ℝ := (hs.length : ℝ)
  have N0 : 0 ≤ N := Nat.cast_nonneg _
  have rest : 0 ≤ |h| * w + η + (length hs * w + N * η) := by positivity
  have e1 : X * (e + (|h| + length hs) * w + (N + 1) * η) = X * e + X * (|h| * w + η + (length hs * w + N * η)) := by ring
  rw [e1]
  have a := mul_le_mul_of_nonneg_right x1 e0
  have b := mul_le_mul_of_nonneg_right (show 1 ≤ X by linarith) rest
  linarith

theorem bound_mono {η e : ℝ} (L0 : 0 ≤ L) (ρ0 : 0 ≤ ρ) (ω0 : 0 ≤ ω) (η0 : 0 ≤ η) (e0 : 0 ≤ e) (hs : List ℝ) : e ≤ bound L ρ ω η e hs := by
  have S0 := length_nonneg hs
  have x : 1 ≤ Real.exp (2 * L * length hs) := Real.one_le_exp (by positivity)
  have r : e ≤ e + length hs * (4 * ω + 2 * ρ) + hs.length * η := by
    have : 0 ≤ length hs * (4 * ω + 2 * ρ) + hs.length * η := by positivity
    linarith
  unfold bound
  nlinarith

theorem bound_le {η e e' : ℝ} (h : e ≤ e') (hs : List ℝ) : bound L ρ ω η e hs ≤ bound L ρ ω η e' hs := by
  unfold bound
  exact mul_le_mul_of_nonneg_left (by linarith) (Real.exp_pos _).le

theorem inside_head {t : ℝ} : ∀ {hs : List ℝ}, Inside I t hs → t ∈ I
  | [], h => h
  | _ :: _, h => h.1

/-- **C170** (error). However the steps are chosen, the distance of the computed flow from the flow is at most the sum of the
distance at the start, four times the variation of the slope over one step and twice the error of the right-hand side, both
times the length of the flow, and the changes made after the steps, multiplied by `exp (2 L · length)`. Needed: the steps are
short enough for the slope, and what is bounded stays inside the region in which the right-hand side is known. -/
theorem c170_error (H : Follows I p rhs Y D L ρ r ω δ) {T : Tableau} (hT : T ∈ tableaux) (L0 : 0 ≤ L) (ρ0 : 0 ≤ ρ) (ω0 : 0 ≤ ω) (hδ : 14 * L * δ ≤ 1)
    {post : ℕ → E → E} {η : ℝ} (η0 : 0 ≤ η) (hpost : ∀ n y, (∃ t ∈ I, ‖y - Y t‖ ≤ r) → ‖post n y - y‖ ≤ η) (n : ℕ) {t : ℝ} {y : E} {hs : List ℝ}
    (hin : Inside I t hs) (hsmall : ∀ h ∈ hs, |h| ≤ δ) (room : 2 * bound L ρ ω η ‖y - Y t‖ hs + 16 * δ * (ω + ρ) ≤ r) :
    ‖walk T p rhs post n t y hs - Y (t + hs.sum)‖ ≤ bound L ρ ω η ‖y - Y t‖ hs := by
  induction hs generalizing n t y with
  | nil => simp [walk, bound, length]
  | cons h hs ih =>
    set e := ‖y - Y t‖ with he
    have e0 : 0 ≤ e := norm_nonneg _
    have h0 := abs_nonneg h
    have hd := hsmall h List.mem_cons_self
    have δ0 : 0 ≤ δ := h0.trans hd
    have hL : 14 * L * |h| ≤ 1 := by nlinarith [mul_le_mul_of_nonneg_left hd L0]
    set d := 2 * (L * e + (1 + L * |h|) * ω + ρ) with hdd
    have d0 : 0 ≤ d := by rw [hdd]; positivity
    have eb := bound_mono L0 ρ0 ω0 η0 e0 (h :: hs)
    have hω : L * |h| * ω ≤ ω / 14 := by nlinarith
    have d1 : L * (e + 7 * |h| * d + |h| * ω) + ρ + ω ≤ d := by
      have : 7 * (L * |h|) * d ≤ d / 2 := by nlinarith
      have e1 : d / 2 = L * e + (1 + L * |h|) * ω + ρ := by rw [hdd]; ring
      nlinarith
    have he7 : 7 * |h| * d ≤ e + 15 * δ * ω + 14 * δ * ρ := by
      have a : 7 * |h| * d = 14 * L * |h| * e + 14 * |h| * (ω + L * |h| * ω) + 14 * |h| * ρ := by rw [hdd]; ring
      have b : 14 * L * |h| * e ≤ e := by nlinarith
      have c : 14 * |h| * (ω + L * |h| * ω) ≤ 15 * δ * ω := by
        have c1 : ω + L * |h| * ω ≤ 15 / 14 * ω := by linarith
        have c2 := mul_le_mul_of_nonneg_left c1 (show 0 ≤ 14 * |h| by positivity)
        have c3 := mul_le_mul_of_nonneg_right hd ω0
        nlinarith
      have c4 := mul_le_mul_of_nonneg_right hd ρ0
      linarith
    have hω2 : |h| * ω ≤ δ * ω := mul_le_mul_of_nonneg_right hd ω0
    have δρ : 0 ≤ δ * ρ := by positivity
    have d2 : e + 7 * |h| * d + |h| * ω ≤ r := by linarith
    have tI : t ∈ I := hin.1
    have hI : t + h ∈ I := inside_head hin.2
    have s := step_error H (fit hT) L0 tI hI hd ω0 d0 d1 d2
    have s' : ‖step T p rhs y t h - Y (t + h)‖ ≤ e + 2 * L * |h| * e + |h| * (4 * ω + 2 * ρ) := by
      refine s.trans ?_
      have a : |h| * (d + ω) = 2 * L * |h| * e + |h| * (3 * ω + 2 * (L * |h| * ω) + 2 * ρ) := by rw [hdd]; ring
      rw [a]
      have : |h| * (3 * ω + 2 * (L * |h| * ω) + 2 * ρ) ≤ |h| * (4 * ω + 2 * ρ) := mul_le_mul_of_nonneg_left (by linarith) h0
      linarith
    have bc := bound_cons L0 ρ0 ω0 η0 e0 h hs
    have nn : 0 ≤ e + 2 * L * |h| * e + |h| * (4 * ω + 2 * ρ) + η := by positivity
    have bm := bound_mono L0 ρ0 ω0 η0 nn hs
    have pe := hpost n (step T p rhs y t h) ⟨t + h, hI, by
      have : 0 ≤ bound L ρ ω η e (h :: hs) := e0.trans eb
      have : 0 ≤ 16 * δ * (ω + ρ) := by positivity
      linarith⟩
    have new : ‖post n (step T p rhs y t h) - Y (t + h)‖ ≤ e + 2 * L * |h| * e + |h| * (4 * ω + 2 * ρ) + η := by
      have := norm_add_le (post n (step T p rhs y t h) - step T p rhs y t h) (step T p rhs y t h - Y (t + h))
      rw [sub_add_sub_cancel] at this
      linarith
    have bl := (bound_le (L := L) (ρ := ρ) (ω := ω) (η := η) new hs).trans bc
    have := ih (n + 1) (t := t + h) (y := post n (step T p rhs y t h)) hin.2 (fun x hx => hsmall x (List.mem_cons_of_mem _ hx)) (by linarith)
    rw [List.sum_cons, ← add_assoc]
    exact this.trans bl

/-- **C170** (rate). If the slope of the flow changes at most at the rate `K`, the distance is at most proportional to the
largest step. -/
theorem c170_rate {K S : ℝ} (K0 : 0 ≤ K) (L0 : 0 ≤ L) (δ0 : 0 ≤ δ) (H : Follows I p rhs Y D L 0 r (K * δ) δ) {T : Tableau} (hT : T ∈ tableaux) (hδ : 14 * L * δ ≤ 1)
    (n : ℕ) {t : ℝ} {hs : List ℝ} (hin : Inside I t hs) (hsmall : ∀ h ∈ hs, |h| ≤ δ) (hS : length hs ≤ S)
    (room : 8 * Real.exp (2 * L * S) * S * K * δ + 16 * K * δ ^ 2 ≤ r) :
    ‖walk T p rhs (fun _ => id) n t (Y t) hs - Y (t + hs.sum)‖ ≤ 4 * Real.exp (2 * L * S) * S * K * δ := by
  have S0 := length_nonneg hs
  have b : bound L 0 (K * δ) 0 ‖Y t - Y t‖ hs ≤ 4 * Real.exp (2 * L * S) * S * K * δ := by
    unfold bound
    have x : Real.exp (2 * L * length hs) ≤ Real.exp (2 * L * S) := Real.exp_le_exp.2 (by nlinarith)
    have p1 := Real.exp_pos (2 * L * length hs)
    rw [sub_self, norm_zero]
    have q : 0 ≤ K * δ := by positivity
    have e1 : (0 : ℝ) + length hs * (4 * (K * δ) + 2 * 0) + hs.length * 0 = 4 * (length hs * (K * δ)) := by ring
    rw [e1]
    have a := mul_le_mul_of_nonneg_right hS q
    have a0 := mul_nonneg S0 q
    calc Real.exp (2 * L * length hs) * (4 * (length hs * (K * δ))) ≤ Real.exp (2 * L * S) * (4 * (S * (K * δ))) := mul_le_mul x (by linarith) (by linarith) (Real.exp_pos _).le
      _ = _ := by ring
  refine (c170_error H hT L0 le_rfl (by positivity) hδ (η := 0) le_rfl (fun _ _ _ => by simp) n hin hsmall ?_).trans b
  nlinarith

/-- **C170** (convergence). Let `y` be the exact flow in the variable Λ. With any of the tableaux and a parametrisation of Λ,
the computed flow comes as close to it as one likes, uniformly in the number and the position of the steps, if the steps, the
error of the right-hand side, the error of the initial state and the sum of the changes after the steps are small enough. -/
theorem c170_convergence {a b r K S : ℝ} {J : Set ℝ} {f : E → ℝ → E} {y : ℝ → E} (r0 : 0 < r) (K0 : 0 ≤ K) (S0 : 0 ≤ S)
    (hy : ∀ Λ ∈ J, HasDerivWithinAt y (f (y Λ) Λ) J Λ) (hc : ContinuousOn (fun Λ => f (y Λ) Λ) J)
    (hf : ∀ Λ ∈ J, ∀ x, ‖x - y Λ‖ ≤ r → ‖f x Λ - f (y Λ) Λ‖ ≤ K * ‖x - y Λ‖)
    (hl : ∀ t ∈ Set.Icc a b, HasDerivWithinAt p.lam (p.dlam t) (Set.Icc a b) t) (hd : ContinuousOn p.dlam (Set.Icc a b)) (hm : Set.MapsTo p.lam (Set.Icc a b) J)
    {ε : ℝ} (ε0 : 0 < ε) :
    ∃ κ > 0, ∀ T ∈ tableaux, ∀ (g : E → ℝ → E) (post : ℕ → E → E) (η : ℝ) (t : ℝ) (hs : List ℝ) (x : E),
      (∀ Λ ∈ J, ∀ x, ‖x - y Λ‖ ≤ r → ‖g x Λ - f x Λ‖ ≤ κ) → 0 ≤ η → (∀ n x, (∃ Λ ∈ J, ‖x - y Λ‖ ≤ r) → ‖post n x - x‖ ≤ η) → hs.length * η ≤ κ →
      Inside (Set.Icc a b) t hs → (∀ h ∈ hs, |h| ≤ κ) → length hs ≤ S → ‖x - y (p.lam t)‖ ≤ κ →
      ‖walk T p g post 0 t x hs - y (p.lam (t + hs.sum))‖ ≤ ε := by
  obtain ⟨M, hM⟩ := isCompact_Icc.exists_bound_of_continuousOn hd
  set M' := max M 0 with hM'
  have M0 : 0 ≤ M' := le_max_right _ _
  have bM : ∀ t ∈ Set.Icc a b, |p.dlam t| ≤ M' := fun t ht => (hM t ht).trans (le_max_left _ _)
  set D : ℝ → E := fun t => p.dlam t • f (y (p.lam t)) (p.lam t) with hD
  have lc : ContinuousOn p.lam (Set.Icc a b) := fun t ht => (hl t ht).continuousWithinAt
  have Dc : ContinuousOn D (Set.Icc a b) := hd.smul (hc.comp lc hm)
  have Du := isCompact_Icc.uniformContinuousOn_of_continuous Dc
  set L := M' * K with hL
  have L0 : 0 ≤ L := by positivity
  set X := Real.exp (2 * L * S) with hX
  have X0 : 0 < X := Real.exp_pos _
  set e := min ε (r / 4) with he
  have e0 : 0 < e := lt_min ε0 (by positivity)
  set ω := e / (8 * X * (S + 1)) with hω
  have ω0 : 0 < ω := by positivity
  obtain ⟨δ, δ0, hδ⟩ := (Metric.uniformContinuousOn_iff_le.1 Du) ω ω0
  set κ := min (min δ 1) (min (e / (2 * X * (2 + 2 * S * M'))) (min (1 / (14 * L + 1)) (r / (32 * (ω + M'))))) with hκ
  have κ0 : 0 < κ := by
    refine lt_min (lt_min δ0 one_pos) (lt_min (by positivity) (lt_min (by positivity) (by positivity)))
  have k1 : κ ≤ δ := (min_le_left _ _).trans (min_le_left _ _)
  have k2 : κ ≤ 1 := (min_le_left _ _).trans (min_le_right _ _)
  have k3 : κ * (2 * X * (2 + 2 * S * M')) ≤ e := (le_div_iff₀ (by positivity)).1 ((min_le_right _ _).trans (min_le_left _ _))
  have k4 : κ * (14 * L + 1) ≤ 1 := (le_div_iff₀ (by positivity)).1 ((min_le_right _ _).trans ((min_le_right _ _).trans (min_le_left _ _)))
  have k5 : κ * (32 * (ω + M')) ≤ r := (le_div_iff₀ (by positivity)).1 ((min_le_right _ _).trans ((min_le_right _ _).trans (min_le_right _ _)))
  refine ⟨κ, κ0, fun T hT g post η t hs x hg η0 hpost hη hin hsm hlen hx => ?_⟩
  have H : Follows (Set.Icc a b) p g (fun t => y (p.lam t)) D L (M' * κ) r ω κ := by
    refine ⟨Set.ordConnected_Icc, fun t ht => ?_, fun t ht z hz => ?_, fun s hs t ht hst => ?_⟩
    · exact HasDerivWithinAt.scomp t (hy _ (hm ht)) (hl t ht) hm
    · have a1 := hf _ (hm ht) z hz
      have a2 := hg _ (hm ht) z hz
      have a3 := norm_add_le (g z (p.lam t) - f z (p.lam t)) (f z (p.lam t) - f (y (p.lam t)) (p.lam t))
      rw [sub_add_sub_cancel] at a3
      rw [hD]
      simp only
      rw [← smul_sub, norm_smul, Real.norm_eq_abs]
      calc |p.dlam t| * ‖g z (p.lam t) - f (y (p.lam t)) (p.lam t)‖ ≤ M' * (κ + K * ‖z - y (p.lam t)‖) :=
            mul_le_mul (bM t ht) (by linarith) (norm_nonneg _) M0
        _ = _ := by rw [hL]; ring
    · have := hδ s hs t ht (by rw [Real.dist_eq]; exact hst.trans k1)
      rwa [dist_eq_norm] at this
  have bnd : bound L (M' * κ) ω η ‖x - y (p.lam t)‖ hs ≤ e := by
    unfold bound
    have l0 := length_nonneg hs
    have x1 : Real.exp (2 * L * length hs) ≤ X := Real.exp_le_exp.2 (by nlinarith)
    have w0 : 0 ≤ 4 * ω + 2 * (M' * κ) := by positivity
    have i1 : ‖x - y (p.lam t)‖ + length hs * (4 * ω + 2 * (M' * κ)) + hs.length * η ≤ κ * (2 + 2 * S * M') + 4 * S * ω := by
      have := mul_le_mul_of_nonneg_right hlen w0
      nlinarith
    have i0 : 0 ≤ ‖x - y (p.lam t)‖ + length hs * (4 * ω + 2 * (M' * κ)) + hs.length * η := by positivity
    have i2 : X * (4 * S * ω) ≤ e / 2 := by
      have : ω * (8 * X * (S + 1)) = e := by rw [hω]; field_simp
      have : 0 ≤ X * ω := by positivity
      nlinarith
    have i3 := mul_le_mul x1 i1 i0 X0.le
    nlinarith
  have room : 2 * bound L (M' * κ) ω η ‖x - y (p.lam t)‖ hs + 16 * κ * (ω + M' * κ) ≤ r := by
    have r4 : e ≤ r / 4 := min_le_right _ _
    have : M' * κ ≤ M' := mul_le_of_le_one_right M0 k2
    have : 16 * κ * (ω + M' * κ) ≤ 16 * κ * (ω + M') := mul_le_mul_of_nonneg_left (by linarith) (by positivity)
    nlinarith
  have k6 : 14 * L * κ ≤ 1 := by nlinarith
  refine (c170_error H hT L0 (by positivity) ω0.le k6 η0 (fun n z ⟨s, hs, h⟩ => hpost n z ⟨_, hm hs, h⟩) 0 hin hsm room).trans (bnd.trans (min_le_left _ _))

/-- **C170** (old step). The older fourth-order step is the step with the tableau `RK4basic`. -/
theorem c170_old (rhs : E → ℝ → E) (y : E) (x dx : ℝ) : oldStep rhs y x dx = (step rk4 ⟨id, fun _ => 1⟩ rhs y x dx, x + dx) := by
  simp only [oldStep, step, rkStep, slopes, stageLoop, stageState, combine, rk4, Tableau.getA, Tableau.getNode, List.range_succ, List.range_zero, List.length_cons,
    List.length_nil, List.nil_append, List.cons_append, List.foldl_cons, List.foldl_nil, List.getD_cons_zero, List.getD_cons_succ, id, one_smul]
  norm_num
  have e1 : ∀ z : E, (1 / 2 : ℝ) • dx • z = (dx * (1 / 2)) • z := fun z => by module
  have e2 : x + dx / 2 = x + dx * (1 / 2) := by ring
  simp only [e1, e2]
  module

/-- **C170**, refuted for the error estimate: an estimate of zero, with which every step is accepted, says nothing about the
error; it may be of any size. -/
theorem c170_estimate_refuted (B : ℝ) : ∃ f Y : ℝ → ℝ, (∀ s, HasDerivAt Y (f s) s) ∧ Y 0 = 0 ∧ Y 1 = B ∧
    rkStep cashKarp ⟨id, fun _ => 1⟩ (fun _ s => f s) (Y 0) (f 0) 0 1 = (0, 0) := by
  set c := -(168000 / 17) * B with hc
  refine ⟨fun s => c * (s * (s - 1 / 5) * (s - 3 / 10) * (s - 3 / 5) * (s - 7 / 8) * (s - 1)),
    fun s => c * (-(63 / 4000) * s ^ 2 + 51 / 400 * s ^ 3 - 3347 / 8000 * s ^ 4 + 1319 / 2000 * s ^ 5 - 119 / 240 * s ^ 6 + 1 / 7 * s ^ 7), fun s => ?_, by simp, by rw [hc]; ring, ?_⟩
  · have d : ∀ n : ℕ, HasDerivAt (fun s : ℝ => s ^ (n + 1)) ((n + 1 : ℕ) * s ^ n) s := fun n => hasDerivAt_pow (n + 1) s
    have := ((((((d 1).const_mul (-(63 / 4000 : ℝ))).add ((d 2).const_mul (51 / 400 : ℝ))).sub ((d 3).const_mul (3347 / 8000 : ℝ))).add
      ((d 4).const_mul (1319 / 2000 : ℝ))).sub ((d 5).const_mul (119 / 240 : ℝ))).add ((d 6).const_mul (1 / 7 : ℝ)) |>.const_mul c
    refine this.congr_deriv ?_
    push_cast
    ring
  · simp only [rkStep, slopes, stageLoop, combine, errorVec, cashKarp, Tableau.getNode, Tableau.getErrorB, List.range_succ, List.range_zero,
      List.length_cons, List.length_nil, List.nil_append, List.cons_append, List.foldl_cons, List.foldl_nil, List.getD_cons_zero, List.getD_cons_succ, id, one_smul, List.range']
    norm_num

/-! ### Examples -/

/-- Decay: `y' = -y`, started at one. -/
theorem example_decay {p : FlowParam ℝ} {a b ε : ℝ} (hl : ∀ t ∈ Set.Icc a b, HasDerivWithinAt p.lam (p.dlam t) (Set.Icc a b) t)
    (hd : ContinuousOn p.dlam (Set.Icc a b)) (ε0 : 0 < ε) : ∃ κ > 0, ∀ T ∈ tableaux, ∀ (hs : List ℝ), Inside (Set.Icc a b) a hs → (∀ h ∈ hs, |h| ≤ κ) → length hs ≤ b - a →
      |walk T p (fun y _ => -y) (fun _ => id) 0 a (Real.exp (-p.lam a)) hs - Real.exp (-p.lam (a + hs.sum))| ≤ ε := by
  rcases lt_or_ge b a with hab | hab
  · refine ⟨1, one_pos, fun T _ hs hin => ?_⟩
    have := inside_head hin
    exact absurd this.2 (by have := this.1; linarith [this])
  have hy : ∀ Λ : ℝ, HasDerivAt (fun Λ : ℝ => Real.exp (-Λ)) (-Real.exp (-Λ)) Λ := fun Λ => by
    have := (hasDerivAt_neg Λ).exp
    simpa using this
  obtain ⟨κ, k0, h⟩ := c170_convergence (p := p) (f := fun y _ => -y) (y := fun Λ => Real.exp (-Λ)) (J := Set.univ) (a := a) (b := b) (r := 1) (K := 1) (S := b - a) one_pos zero_le_one
    (by linarith) (fun Λ _ => (hy Λ).hasDerivWithinAt) (by fun_prop) (fun Λ _ x _ => by rw [one_mul, ← neg_sub', norm_neg]) hl hd (fun _ _ => trivial) ε0
  refine ⟨κ, k0, fun T hT hs hin hsm hlen => ?_⟩
  exact h T hT _ (fun _ => id) 0 a hs _ (fun _ _ _ _ => by rw [sub_self, norm_zero]; exact k0.le) le_rfl (fun _ _ _ => by simp) (by rw [mul_zero]; exact k0.le) hin hsm hlen (by rw [sub_self, norm_zero]; exact k0.le)

/-- Non-vacuity, with the parametrisations of the program by exponentials; `n` equal steps of the interval qualify. -/
example : ∃ κ > 0, ∀ n : ℕ, 0 < n → 1 / (n : ℝ) ≤ κ → ∀ T ∈ tableaux,
    |walk T ⟨GridMap.expLam, GridMap.expD⟩ (fun y _ => -y) (fun _ => id) 0 0 (Real.exp (-GridMap.expLam 0)) (List.replicate n (1 / (n : ℝ))) - Real.exp (-GridMap.expLam 1)| ≤ 1 / 1000 := by
  have hl := fun t => (GridMap.c74_flow_parametrisations 1 t).1
  have hd : Continuous GridMap.expD := by unfold GridMap.expD; fun_prop
  obtain ⟨κ, k0, h⟩ := example_decay (p := ⟨GridMap.expLam, GridMap.expD⟩) (a := 0) (b := 1) (fun t _ => (hl t).hasDerivWithinAt) hd.continuousOn (ε := 1 / 1000) (by norm_num)
  refine ⟨κ, k0, fun n n0 hn T hT => ?_⟩
  have nr : (0 : ℝ) < n := by exact_mod_cast n0
  have ins : ∀ m : ℕ, ∀ t : ℝ, 0 ≤ t → t + m * (1 / (n : ℝ)) ≤ 1 → Inside (Set.Icc 0 1) t (List.replicate m (1 / (n : ℝ))) := fun m => by
    have q : 0 < 1 / (n : ℝ) := by positivity
    induction m with
    | zero => exact fun t h0 h1 => ⟨h0, by simpa using h1⟩
    | succ m ih =>
      intro t h0 h1
      push_cast at h1
      have : 0 ≤ (m : ℝ) * (1 / n) := by positivity
      exact ⟨⟨h0, by nlinarith⟩, ih _ (by linarith) (by linarith)⟩
  have sum : (List.replicate n (1 / (n : ℝ))).sum = 1 := by
    rw [List.sum_replicate, nsmul_eq_mul]; field_simp
  have := h T hT (List.replicate n (1 / (n : ℝ))) (ins n 0 le_rfl (by field_simp; simp)) (fun x hx => by
    rw [List.eq_of_mem_replicate hx, abs_of_pos (by positivity)]; exact hn) (by
    unfold length
    rw [List.map_replicate, abs_of_pos (by positivity), sum]; norm_num)
  rwa [sum, zero_add] at this

end Verif.Accuracy
