import Verif.Bse.Props
import Verif.Parquet.PropsWindow

/-! # C144: convergence of the parquet iteration at weak coupling -/
namespace Verif.Bse

open Keldysh (Ch)
open Multiloop (others total Parquet)
open Filter Topology Parquet

section Generic

variable {S : Type} [NormedAddCommGroup S] [NormedSpace ℝ S]

/-- A map that keeps a ball and contracts it. -/
structure Contracts (f : S → S) (R q : ℝ) : Prop where
  into : ∀ x, ‖x‖ ≤ R → ‖f x‖ ≤ R
  lip : ∀ x y, ‖x‖ ≤ R → ‖y‖ ≤ R → ‖f x - f y‖ ≤ q * ‖x - y‖
  nonneg : 0 ≤ q
  lt_one : q < 1

/-- One update with plain mixing. -/
noncomputable def mixed (f : S → S) (m : ℝ) (x : S) : S := m • f x + (1 - m) • x

theorem mixed_contracts {f : S → S} {R q m : ℝ} (h : Contracts f R q) (hm : 0 < m) (hm1 : m ≤ 1) :
    Contracts (mixed f m) R (1 - m * (1 - q)) := by
  have hq := h.nonneg
  have hq1 := h.lt_one
  have h0 : 0 ≤ 1 - m := by linarith
  refine ⟨fun x hx => ?_, fun x y hx hy => ?_, by nlinarith, by nlinarith⟩
  · refine (norm_add_le _ _).trans ?_
    rw [norm_smul, norm_smul, Real.norm_of_nonneg hm.le, Real.norm_of_nonneg h0]
    nlinarith [h.into x hx]
  · have e : mixed f m x - mixed f m y = m • (f x - f y) + (1 - m) • (x - y) := by
      simp only [mixed, smul_sub]
      abel
    rw [e]
    refine (norm_add_le _ _).trans ?_
    rw [norm_smul, norm_smul, Real.norm_of_nonneg hm.le, Real.norm_of_nonneg h0]
    nlinarith [h.lip x y hx hy]

/-- Banach's theorem on the ball. -/
theorem exists_fixed [CompleteSpace S] {f : S → S} {R q : ℝ} (hR : 0 ≤ R) (h : Contracts f R q) :
    ∃ s, ‖s‖ ≤ R ∧ f s = s ∧ ∀ t, ‖t‖ ≤ R → f t = t → t = s := by
  have hc : IsComplete (Metric.closedBall (0 : S) R) := Metric.isClosed_closedBall.isComplete
  have hm : Set.MapsTo f (Metric.closedBall (0 : S) R) (Metric.closedBall (0 : S) R) := by
    intro x hx
    rw [mem_closedBall_zero_iff] at hx ⊢
    exact h.into x hx
  have hk : ContractingWith ⟨q, h.nonneg⟩ (hm.restrict f _ _) := by
    refine ⟨by exact_mod_cast h.lt_one, LipschitzWith.of_dist_le_mul fun x y => ?_⟩
    have hx := mem_closedBall_zero_iff.1 x.2
    have hy := mem_closedBall_zero_iff.1 y.2
    rw [Subtype.dist_eq, Subtype.dist_eq, dist_eq_norm, dist_eq_norm]
    exact h.lip _ _ hx hy
  obtain ⟨s, hs, hfix, -⟩ := hk.exists_fixedPoint' hc hm (x := 0) (by simpa using hR) (edist_ne_top _ _)
  have hsR := mem_closedBall_zero_iff.1 hs
  refine ⟨s, hsR, hfix, fun t ht hft => ?_⟩
  have := h.lip t s ht hsR
  rw [hft, hfix.eq] at this
  have hq1 := h.lt_one
  have h0 : ‖t - s‖ = 0 := by nlinarith [norm_nonneg (t - s)]
  exact sub_eq_zero.1 (norm_eq_zero.1 h0)

theorem iterate_bound {f : S → S} {R q : ℝ} (h : Contracts f R q) {s x : S} (hs : ‖s‖ ≤ R) (hfix : f s = s) (hx : ‖x‖ ≤ R) (n : ℕ) :
    ‖f^[n] x‖ ≤ R ∧ ‖f^[n] x - s‖ ≤ q ^ n * ‖x - s‖ := by
  induction n with
  | zero => simpa using hx
  | succ n ih =>
    rw [Function.iterate_succ_apply']
    refine ⟨h.into _ ih.1, ?_⟩
    have := h.lip _ _ ih.1 hs
    rw [hfix] at this
    refine this.trans ?_
    rw [pow_succ']
    have := mul_le_mul_of_nonneg_left ih.2 h.nonneg
    linarith

theorem iterate_tendsto {f : S → S} {R q : ℝ} (h : Contracts f R q) {s x : S} (hs : ‖s‖ ≤ R) (hfix : f s = s) (hx : ‖x‖ ≤ R) :
    Tendsto (fun n => f^[n] x) atTop (𝓝 s) := by
  rw [tendsto_iff_norm_sub_tendsto_zero]
  have h0 : Tendsto (fun n : ℕ => q ^ n * ‖x - s‖) atTop (𝓝 0) := by
    simpa using (tendsto_pow_atTop_nhds_zero_of_lt_one h.nonneg h.lt_one).mul_const ‖x - s‖
  exact squeeze_zero (fun n => norm_nonneg _) (fun n => (iterate_bound h hs hfix hx n).2) h0

/-- The parquet iteration with plain mixing; deviations are quotients of the size of the difference and the size of the
new state, parquet_solver.hpp:593-600. -/
noncomputable def plainProblem (f : S → S) (m : ℝ) (NV NS : S → ℝ) : Problem S where
  rhs := f
  upd := plainMixing m
  relV x y := some (NV (x - y) / NV y)
  relS x y := some (NS (x - y) / NS y)

theorem pushBounded_getLast? {α : Type} (n : ℕ) (hn : 0 < n) (l : List α) (x : α) : (pushBounded n l x).getLast? = some x := by
  simp only [pushBounded]
  split
  · rename_i h
    have hl : ¬ (l ++ [x]).length ≤ 1 := by
      simp only [List.length_append, List.length_singleton] at h ⊢
      omega
    rw [List.getLast?_drop, if_neg hl]
    simp
  · simp

/-- Without acceleration the inputs of the passes are the iterates of the mixed map. -/
theorem input_plain (f : S → S) (m : ℝ) (NV NS : S → ℝ) (acc mix : ℝ) (x : S) (n : ℕ) :
    input (plainProblem f m NV NS) acc mix x n = (mixed f m)^[n] x := by
  induction n with
  | zero => rfl
  | succ n ih =>
    rw [Function.iterate_succ_apply', ← ih]
    have e : input (plainProblem f m NV NS) acc mix x (n + 1) = plainMixing m
        (pushBounded 4 (after (plainProblem f m NV NS) acc mix x n).hist
          (f (input (plainProblem f m NV NS) acc mix x n), input (plainProblem f m NV NS) acc mix x n))
        (after (plainProblem f m NV NS) acc mix x n).mix := rfl
    rw [e, plainMixing, pushBounded_getLast? 4 (by norm_num)]
    rfl

/-- The loop ends with some pass, and reports convergence as soon as one pass does. -/
theorem loop_passes {S : Type} (P : Problem S) (acc mix : ℝ) (s : S) (k j : ℕ) :
    (∃ n, j ≤ n ∧ n ≤ j + k ∧ loop P acc k (after P acc mix s j) = pass P acc (after P acc mix s n)) ∧
    (∀ i, j ≤ i → i ≤ j + k → (pass P acc (after P acc mix s i)).2 = true → (loop P acc k (after P acc mix s j)).2 = true) := by
  induction k generalizing j with
  | zero =>
    refine ⟨⟨j, le_rfl, le_rfl, rfl⟩, fun i h1 h2 h => ?_⟩
    obtain rfl : i = j := by omega
    exact h
  | succ k ih =>
    simp only [loop]
    split_ifs with h
    · exact ⟨⟨j, le_rfl, by omega, rfl⟩, fun _ _ _ _ => h⟩
    · obtain ⟨⟨n, h1, h2, h3⟩, h4⟩ := ih (j + 1)
      refine ⟨⟨n, by omega, by omega, h3⟩, fun i i1 i2 hi => ?_⟩
      rcases Nat.lt_or_ge j i with hji | hji
      · exact h4 i (by omega) (by omega) hi
      · obtain rfl : i = j := by omega
        exact absurd hi h

/-- **C144** (solver).  If the parquet equations contract a ball and the iteration starts inside it, the iteration with plain
mixing reports convergence once enough passes are allowed, for every positive accuracy.  The state it returns lies in the
ball, and its distance to the solution is bounded by the change made in the last pass. -/
theorem c144_solver [CompleteSpace S] {f : S → S} {R q m : ℝ} (hR : 0 ≤ R) (h : Contracts f R q) (hm : 0 < m) (hm1 : m ≤ 1)
    (NV NS : S → ℝ) (cV : Continuous NV) (cS : Continuous NS) (zV : NV 0 = 0) (zS : NS 0 = 0) (x : S) (hx : ‖x‖ ≤ R) (mix : ℝ) :
    ∃ s, ‖s‖ ≤ R ∧ f s = s ∧
      (0 < NV s → 0 < NS s → ∀ acc > 0, ∃ N0, ∀ Nmax ≥ N0, (solve (plainProblem f m NV NS) acc Nmax mix x).2 = true) ∧
      ∀ acc Nmax, ∃ inp : S, ‖(solve (plainProblem f m NV NS) acc Nmax mix x).1.stateIn - s‖ * (m * (1 - q)) ≤
        (1 - m * (1 - q)) * ‖inp - (solve (plainProblem f m NV NS) acc Nmax mix x).1.stateIn‖ ∧
        ((solve (plainProblem f m NV NS) acc Nmax mix x).2 = true →
          ¬ acc < NV (inp - (solve (plainProblem f m NV NS) acc Nmax mix x).1.stateIn) /
            NV (solve (plainProblem f m NV NS) acc Nmax mix x).1.stateIn) := by
  obtain ⟨s, hs, hfix, -⟩ := exists_fixed hR h
  have hM := mixed_contracts h hm hm1
  have hMfix : mixed f m s = s := by
    rw [mixed, hfix, ← add_smul]; simp
  set P := plainProblem f m NV NS with hP
  have hinp := fun acc n => input_plain f m NV NS acc mix x n
  have hlim := iterate_tendsto hM hs hMfix hx
  refine ⟨s, hs, hfix, fun pV pS acc hacc => ?_, fun acc Nmax => ?_⟩
  · have hlim1 : Tendsto (fun n => (mixed f m)^[n + 1] x) atTop (𝓝 s) := hlim.comp (tendsto_add_atTop_nat 1)
    have key : ∀ N : S → ℝ, Continuous N → N 0 = 0 → 0 < N s →
        Tendsto (fun n => N ((mixed f m)^[n] x - (mixed f m)^[n + 1] x) / N ((mixed f m)^[n + 1] x)) atTop (𝓝 0) := by
      intro N cN z p
      have h1 := (cN.tendsto _).comp (hlim.sub hlim1)
      have h2 := (cN.tendsto _).comp hlim1
      rw [sub_self, z] at h1
      have := h1.div h2 p.ne'
      rw [zero_div] at this
      exact this
    have e1 := (key NV cV zV pV).eventually (gt_mem_nhds hacc)
    have e2 := (key NS cS zS pS).eventually (gt_mem_nhds hacc)
    obtain ⟨n, hn⟩ := (e1.and e2).exists
    refine ⟨n + 1, fun Nmax hN => (loop_passes P acc mix x (Nmax - 1) 0).2 n (Nat.zero_le _) (by omega) ?_⟩
    show isConverged acc (some (NV (input P acc mix x n - input P acc mix x (n + 1)) / NV (input P acc mix x (n + 1))))
      (some (NS (input P acc mix x n - input P acc mix x (n + 1)) / NS (input P acc mix x (n + 1)))) = true
    rw [hinp, hinp]
    simp only [isConverged, flt, Bool.not_or, Bool.and_eq_true, Bool.not_eq_true', decide_eq_false_iff_not, not_lt]
    exact ⟨hn.1.le, hn.2.le⟩
  · obtain ⟨n, -, -, hn⟩ := (loop_passes P acc mix x (Nmax - 1) 0).1
    have hsol : solve P acc Nmax mix x = pass P acc (after P acc mix x n) := hn
    have hst : (solve P acc Nmax mix x).1.stateIn = input P acc mix x (n + 1) := by rw [hsol]; rfl
    have hi1 : input P acc mix x (n + 1) = mixed f m (input P acc mix x n) := by
      rw [hinp, hinp, Function.iterate_succ_apply']
    refine ⟨input P acc mix x n, ?_, fun hc => ?_⟩
    · rw [hst, hi1]
      have hb : ‖input P acc mix x n‖ ≤ R := by rw [hinp]; exact (iterate_bound hM hs hMfix hx n).1
      generalize input P acc mix x n = y at hb
      have l := hM.lip y s hb hs
      rw [hMfix] at l
      have t : ‖y - s‖ ≤ ‖y - mixed f m y‖ + ‖mixed f m y - s‖ := by
        simpa using norm_add_le (y - mixed f m y) (mixed f m y - s)
      nlinarith [hM.nonneg]
    · rw [hst]
      rw [hsol] at hc
      have hc' : isConverged acc (some (NV (input P acc mix x n - input P acc mix x (n + 1)) / NV (input P acc mix x (n + 1))))
        (some (NS (input P acc mix x n - input P acc mix x (n + 1)) / NS (input P acc mix x (n + 1)))) = true := hc
      simp only [isConverged, flt, Bool.not_or, Bool.and_eq_true, Bool.not_eq_true', decide_eq_false_iff_not] at hc'
      exact hc'.1

/-- Non-vacuity: an affine map with slope one half and the mixing factor one tenth. -/
example : Contracts (fun y : ℝ => y / 2 + 1) 2 (1 / 2) ∧
    ∀ acc > 0, ∃ N0, ∀ Nmax ≥ N0, (solve (plainProblem (fun y : ℝ => y / 2 + 1) (1 / 10) (fun y => ‖y‖) (fun y => ‖y‖)) acc Nmax (1 / 10) 0).2 = true := by
  have h : Contracts (fun y : ℝ => y / 2 + 1) 2 (1 / 2) := by
    refine ⟨fun x hx => ?_, fun x y _ _ => ?_, by norm_num, by norm_num⟩
    · rw [Real.norm_eq_abs, abs_le] at *
      constructor <;> linarith [hx.1, hx.2]
    · rw [show x / 2 + 1 - (y / 2 + 1) = (1 / 2) * (x - y) by ring, norm_mul]
      norm_num
  refine ⟨h, ?_⟩
  obtain ⟨s, hs, hfix, hconv, -⟩ := c144_solver (by norm_num) h (m := 1 / 10) (by norm_num) (by norm_num)
    (fun y => ‖y‖) (fun y => ‖y‖) continuous_norm continuous_norm norm_zero norm_zero 0 (by simp) (1 / 10)
  have : s = 2 := by
    have h1 : s / 2 + 1 = s := hfix
    linarith
  subst this
  exact hconv (by norm_num) (by norm_num)

end Generic

variable {V : Type} [NormedAddCommGroup V] [NormedSpace ℝ V]

/-- The step contracts at weak coupling. -/
theorem contracts_of_weak (s : Step V) {u x R : ℝ} (h : Weak s u x R) : Contracts (iterate s false) R (x * (5 * u + 12 * R)) := by
  have hu : 0 ≤ u := (norm_nonneg _).trans h.bare
  have hx : 0 ≤ x := le_trans (by positivity) (h.bubble .a)
  have hR := h.pos
  exact ⟨fun T hT => (c144_contraction s h T T hT hT).1, fun T T' hT hT' => (c144_contraction s h T T' hT hT').2,
    by positivity, h.small⟩

/-- A sufficient condition: interaction times bubble at most one twelfth. -/
theorem weak_of_product (s : Step V) {u x : ℝ} (hb : ‖s.bare‖ ≤ u) (hp : ∀ r, ‖s.pi r‖ ≤ x) (h : x * u ≤ 1 / 12) :
    Weak s u x (u / 2) := by
  have hu : 0 ≤ u := (norm_nonneg _).trans hb
  have hx : 0 ≤ x := le_trans (by positivity) (hp .a)
  refine ⟨hb, hp, by positivity, ?_, ?_⟩
  · nlinarith [mul_nonneg hu (by linarith : 0 ≤ 1 / 12 - x * u)]
  · linarith

/-- **C144** (weak coupling).  If the product of interaction and bubble is at most one twelfth, the parquet equations have
exactly one solution with reducible parts of at most half the interaction, the solution is also unique among the fixed
points of the averaged step there, and every iteration that starts in this region, with any mixing factor, approaches it
geometrically. -/
theorem c144_weak [CompleteSpace V] (s : Step V) (hc : ∀ r a b c, s.pi r (s.pi r a b) c = s.pi r a (s.pi r b c)) {u x : ℝ}
    (hb : ‖s.bare‖ ≤ u) (hp : ∀ r, ‖s.pi r‖ ≤ x) (h : x * u ≤ 1 / 12) :
    ∃ sol : Ch → V, Parquet s.pi s.bare sol ∧ ‖sol‖ ≤ u / 2 ∧
      (∀ T, ‖T‖ ≤ u / 2 → Parquet s.pi s.bare T → T = sol) ∧
      (∀ T, ‖T‖ ≤ u / 2 → iterate s false T = T → T = sol) ∧
      ∀ m, 0 < m → m ≤ 1 → ∀ T, ‖T‖ ≤ u / 2 → ∀ n,
        ‖(mixed (iterate s false) m)^[n] T - sol‖ ≤ (1 - m / 12) ^ n * ‖T - sol‖ := by
  have hw := weak_of_product s hb hp h
  have hu : 0 ≤ u := (norm_nonneg _).trans hb
  have hx : 0 ≤ x := le_trans (by positivity) (hp .a)
  have hk := contracts_of_weak s hw
  obtain ⟨sol, hs, hfix, huniq⟩ := exists_fixed hw.pos hk
  refine ⟨sol, c144_fixed_partial s sol hc hfix fun r => ?_, hs, fun T hT hpT => huniq T hT (c144_solution s false T hpT), huniq,
    fun m hm hm1 T hT n => ?_⟩
  · have h1 : ‖s.bare + others r sol‖ ≤ u + 2 * (u / 2) :=
      (norm_add_le _ _).trans (add_le_add hb ((Multiloop.norm_others r sol).trans (by linarith)))
    have := mul_le_mul (hp r) h1 (norm_nonneg _) hx
    nlinarith
  · have hM := mixed_contracts hk hm hm1
    have hMfix : mixed (iterate s false) m sol = sol := by
      rw [mixed, hfix, ← add_smul]; simp
    refine ((iterate_bound hM hs hMfix hT n).2).trans (mul_le_mul_of_nonneg_right ?_ (norm_nonneg _))
    refine pow_le_pow_left₀ hM.nonneg ?_ n
    nlinarith

/-- Non-vacuity: vertices are numbers, interaction and all three bubbles are not zero. -/
example : ∃ s : Step ℝ, (∀ r a b c, s.pi r (s.pi r a b) c = s.pi r a (s.pi r b c)) ∧ s.bare ≠ 0 ∧ (∀ r, s.pi r ≠ 0) ∧
    ∃ sol : Ch → ℝ, Parquet s.pi s.bare sol ∧ ∀ r, sol r ≠ 0 := by
  let s : Step ℝ := ⟨1, fun _ => (1 / 12 : ℝ) • ContinuousLinearMap.mul ℝ ℝ, 0, 0⟩
  have hc : ∀ r a b c, s.pi r (s.pi r a b) c = s.pi r a (s.pi r b c) := by
    intro r a b c
    simp [s]
    ring
  have hnorm : ∀ r, ‖s.pi r‖ ≤ 1 / 12 := by
    intro r
    refine ContinuousLinearMap.opNorm_le_bound₂ _ (by norm_num) fun a b => ?_
    simp [s, abs_mul, mul_assoc]
  obtain ⟨sol, hpq, -⟩ := c144_weak s hc (u := 1) (x := 1 / 12) (by simp [s]) hnorm (by norm_num)
  refine ⟨s, hc, by simp [s], fun r h => ?_, sol, hpq, fun r h => ?_⟩
  · have := congrArg (fun f : ℝ →L[ℝ] ℝ →L[ℝ] ℝ => f 1 1) h
    simp [s] at this
  · have h1 := (hpq r).1
    rw [h] at h1
    have e : ∀ r, s.pi r (s.bare + others r sol) (s.bare + total sol) = 1 / 12 * ((1 + others r sol) * (1 + total sol)) := by
      intro r
      simp [s]
      ring
    rw [e] at h1
    have h2 : total sol = others r sol := by rw [Multiloop.total_eq r, h, add_zero]
    rw [h2] at h1
    have h3 : (1 + others r sol) * (1 + others r sol) = 0 := by linarith
    have h4 : 1 + others r sol = 0 := mul_self_eq_zero.1 h3
    have h5 : ∀ r', sol r' = 0 := by
      intro r'
      have := (hpq r').1
      rw [e, h2, h4, mul_zero, mul_zero] at this
      exact this
    have h6 : others r sol = 0 := by cases r <;> simp [others, h5]
    rw [h6] at h4
    norm_num at h4

end Verif.Bse
