import Mathlib.Analysis.Calculus.IteratedDeriv.Lemmas
import Mathlib.Analysis.Calculus.ContDiff.RCLike
import Mathlib.Analysis.Calculus.ContDiff.Deriv
import Mathlib.Analysis.Calculus.Deriv.Mul
import Mathlib.Analysis.Calculus.MeanValue
import Mathlib.Tactic.Module
import Mathlib.Tactic.Linarith

/-! Derivatives of compositions, up to the fourth. -/
namespace Verif.Order
open Filter Topology

variable {V W : Type} [NormedAddCommGroup V] [NormedSpace ℝ V] [NormedAddCommGroup W] [NormedSpace ℝ W]

/-- Linear maps, and maps linear in two, three and four arguments. -/
abbrev L1 (W : Type) [NormedAddCommGroup W] [NormedSpace ℝ W] := W →L[ℝ] W
@[inherit_doc L1] abbrev L2 (W : Type) [NormedAddCommGroup W] [NormedSpace ℝ W] := W →L[ℝ] L1 W
@[inherit_doc L1] abbrev L3 (W : Type) [NormedAddCommGroup W] [NormedSpace ℝ W] := W →L[ℝ] L2 W
noncomputable instance : NormedAddCommGroup (L2 W) := ContinuousLinearMap.toNormedAddCommGroup
noncomputable instance : NormedSpace ℝ (L2 W) := ContinuousLinearMap.toNormedSpace
noncomputable instance : NormedAddCommGroup (L3 W) := ContinuousLinearMap.toNormedAddCommGroup
noncomputable instance : NormedSpace ℝ (L3 W) := ContinuousLinearMap.toNormedSpace
@[inherit_doc L1] abbrev L4 (W : Type) [NormedAddCommGroup W] [NormedSpace ℝ W] := W →L[ℝ] L3 W

theorem deriv_smooth {g : ℝ → W} {x : ℝ} {n : ℕ} (h : ContDiffAt ℝ ((n + 1 : ℕ)) g x) : ContDiffAt ℝ n (deriv g) x := by
  have := (h.fderiv_right (m := n) (by exact_mod_cast le_rfl)).clm_apply (contDiffAt_const (c := (1 : ℝ)))
  exact this

theorem iter_smooth {g : ℝ → W} {x : ℝ} {n : ℕ} (m : ℕ) (h : ContDiffAt ℝ ((n + m : ℕ)) g x) : ContDiffAt ℝ n (iteratedDeriv m g) x := by
  induction m generalizing n with
  | zero => simpa [iteratedDeriv_zero] using h
  | succ m ih =>
    rw [iteratedDeriv_succ]
    exact deriv_smooth (ih (by rwa [show n + 1 + m = n + (m + 1) by omega]))

theorem iter_deriv {g : ℝ → W} {x : ℝ} {N : ℕ} (h : ContDiffAt ℝ N g x) {n : ℕ} (hn : n < N) :
    ∀ᶠ s in 𝓝 x, HasDerivAt (iteratedDeriv n g) (iteratedDeriv (n + 1) g s) s := by
  filter_upwards [h.eventually (by simp)] with s hs
  have : ContDiffAt ℝ ((1 : ℕ)) (iteratedDeriv n g) s := iter_smooth n (hs.of_le (by exact_mod_cast (by omega)))
  rw [iteratedDeriv_succ]
  exact (this.differentiableAt (by simp)).hasDerivAt

theorem comp_deriv {A : W → V} {g : ℝ → W} {x : ℝ} (hA : ContDiffAt ℝ 1 A (g x)) (hg : ContDiffAt ℝ 1 g x) :
    ∀ᶠ s in 𝓝 x, HasDerivAt (fun s => A (g s)) (fderiv ℝ A (g s) (iteratedDeriv 1 g s)) s := by
  have hA' := hg.continuousAt.eventually (hA.eventually (by simp))
  filter_upwards [hA', hg.eventually (by simp)] with s h1 h2
  rw [iteratedDeriv_one]
  exact (h1.differentiableAt (by simp)).hasFDerivAt.comp_hasDerivAt s (h2.differentiableAt (by simp)).hasDerivAt

theorem iter_of {g k : ℝ → W} {n : ℕ} {x : ℝ} {u : ℝ → W} (h : iteratedDeriv n g =ᶠ[𝓝 x] u) (hu : ∀ᶠ s in 𝓝 x, HasDerivAt u (k s) s) :
    iteratedDeriv (n + 1) g =ᶠ[𝓝 x] k := by
  rw [iteratedDeriv_succ]
  exact h.deriv.trans (hu.mono fun s hs => hs.deriv)

set_option maxHeartbeats 1000000 in
/-- The derivatives of a composition. -/
theorem composition {F : W → W} {g : ℝ → W} {x : ℝ} (hF : ContDiffAt ℝ 4 F (g x)) (hg : ContDiffAt ℝ 4 g x) {A1 : W → L1 W}
    {A2 : W → L2 W} {A3 : W → L3 W} {A4 : W → L4 W}
    (e1 : A1 = fderiv ℝ F) (e2 : A2 = fderiv ℝ A1) (e3 : A3 = fderiv ℝ A2) (e4 : A4 = fderiv ℝ A3) {d : ℕ → W} (hd : ∀ n, d n = iteratedDeriv n g x) :
    iteratedDeriv 1 (fun s => F (g s)) x = A1 (g x) (d 1) ∧
    iteratedDeriv 2 (fun s => F (g s)) x = A2 (g x) (d 1) (d 1) + A1 (g x) (d 2) ∧
    iteratedDeriv 3 (fun s => F (g s)) x = A3 (g x) (d 1) (d 1) (d 1) + A2 (g x) (d 2) (d 1) + (2 : ℝ) • A2 (g x) (d 1) (d 2) + A1 (g x) (d 3) ∧
    iteratedDeriv 4 (fun s => F (g s)) x = A4 (g x) (d 1) (d 1) (d 1) (d 1) + A3 (g x) (d 2) (d 1) (d 1) + (2 : ℝ) • A3 (g x) (d 1) (d 2) (d 1) +
      (3 : ℝ) • A3 (g x) (d 1) (d 1) (d 2) + A2 (g x) (d 3) (d 1) + (3 : ℝ) • A2 (g x) (d 2) (d 2) + (3 : ℝ) • A2 (g x) (d 1) (d 3) + A1 (g x) (d 4) := by
  have s1 : ContDiffAt ℝ 3 A1 (g x) := by rw [e1]; exact hF.fderiv_right (by norm_num)
  have s2 : ContDiffAt ℝ 2 A2 (g x) := by rw [e2]; exact s1.fderiv_right (by norm_num)
  have s3 : ContDiffAt ℝ 1 A3 (g x) := by rw [e3]; exact s2.fderiv_right (by norm_num)
  have hg1 : ContDiffAt ℝ 1 g x := hg.of_le (by norm_num)
  have c0 := comp_deriv (hF.of_le (by norm_num)) hg1
  have c1 := comp_deriv (s1.of_le (by norm_num)) hg1
  have c2 := comp_deriv (s2.of_le (by norm_num)) hg1
  have c3 := comp_deriv s3 hg1
  rw [← e1] at c0
  rw [← e2] at c1
  rw [← e3] at c2
  rw [← e4] at c3
  have hg' : ContDiffAt ℝ ((4 : ℕ)) g x := hg
  have g1 := iter_deriv hg' (n := 1) (by omega)
  have g2 := iter_deriv hg' (n := 2) (by omega)
  have g3 := iter_deriv hg' (n := 3) (by omega)
  have r0 : iteratedDeriv 0 (fun s => F (g s)) =ᶠ[𝓝 x] fun s => F (g s) := by rw [iteratedDeriv_zero]
  have r1 := iter_of r0 c0
  have r2 := iter_of r1 (k := fun s => A2 (g s) (iteratedDeriv 1 g s) (iteratedDeriv 1 g s) + A1 (g s) (iteratedDeriv 2 g s)) (by
    filter_upwards [c1, g1] with s h1 h2
    exact h1.clm_apply h2)
  have r3 := iter_of r2 (k := fun s => A3 (g s) (iteratedDeriv 1 g s) (iteratedDeriv 1 g s) (iteratedDeriv 1 g s) + A2 (g s) (iteratedDeriv 2 g s) (iteratedDeriv 1 g s) +
      (2 : ℝ) • A2 (g s) (iteratedDeriv 1 g s) (iteratedDeriv 2 g s) + A1 (g s) (iteratedDeriv 3 g s)) (by
    filter_upwards [c1, c2, g1, g2] with s h1 h2 k1 k2
    have := ((h2.clm_apply k1).clm_apply k1).add (h1.clm_apply k2)
    refine this.congr_deriv ?_
    simp only [add_apply]
    module)
  have r4 := iter_of r3 (k := fun s => A4 (g s) (iteratedDeriv 1 g s) (iteratedDeriv 1 g s) (iteratedDeriv 1 g s) (iteratedDeriv 1 g s) +
      A3 (g s) (iteratedDeriv 2 g s) (iteratedDeriv 1 g s) (iteratedDeriv 1 g s) + (2 : ℝ) • A3 (g s) (iteratedDeriv 1 g s) (iteratedDeriv 2 g s) (iteratedDeriv 1 g s) +
      (3 : ℝ) • A3 (g s) (iteratedDeriv 1 g s) (iteratedDeriv 1 g s) (iteratedDeriv 2 g s) + A2 (g s) (iteratedDeriv 3 g s) (iteratedDeriv 1 g s) +
      (3 : ℝ) • A2 (g s) (iteratedDeriv 2 g s) (iteratedDeriv 2 g s) + (3 : ℝ) • A2 (g s) (iteratedDeriv 1 g s) (iteratedDeriv 3 g s) + A1 (g s) (iteratedDeriv 4 g s)) (by
    filter_upwards [c1, c2, c3, g1, g2, g3] with s h1 h2 h3 k1 k2 k3
    have := (((((h3.clm_apply k1).clm_apply k1).clm_apply k1).add ((h2.clm_apply k2).clm_apply k1)).add
      (((h2.clm_apply k1).clm_apply k2).const_smul (2 : ℝ))).add (h1.clm_apply k3)
    refine this.congr_deriv ?_
    simp only [add_apply]
    module)
  have t1 := r1.eq_of_nhds
  have t2 := r2.eq_of_nhds
  have t3 := r3.eq_of_nhds
  have t4 := r4.eq_of_nhds
  simp only [← hd] at t1 t2 t3 t4
  exact ⟨t1, t2, t3, t4⟩

/-- The derivatives of `x + h • s h` at zero. -/
theorem times {s : ℝ → W} (x : W) {N : ℕ} (hs : ContDiffAt ℝ N s 0) {n : ℕ} (hn : n < N) :
    iteratedDeriv (n + 1) (fun h => x + h • s h) 0 = ((n : ℝ) + 1) • iteratedDeriv n s 0 := by
  have key : ∀ n, n < N → iteratedDeriv (n + 1) (fun h => x + h • s h) =ᶠ[𝓝 0] fun h => ((n : ℝ) + 1) • iteratedDeriv n s h + h • iteratedDeriv (n + 1) s h := by
    intro n
    induction n with
    | zero =>
      intro h0
      refine iter_of (u := fun h => x + h • s h) (by rw [iteratedDeriv_zero]) ?_
      filter_upwards [iter_deriv hs h0] with h hh
      rw [iteratedDeriv_zero] at hh
      refine (((hasDerivAt_id' h).smul hh).const_add x).congr_deriv ?_
      rw [iteratedDeriv_zero]
      push_cast
      module
    | succ n ih =>
      intro hn
      refine iter_of (ih (by omega)) ?_
      filter_upwards [iter_deriv hs (show n < N by omega), iter_deriv hs hn] with h h1 h2
      refine ((h1.const_smul ((n : ℝ) + 1)).add ((hasDerivAt_id' h).smul h2)).congr_deriv ?_
      push_cast
      module
  have := (key n hn).eq_of_nhds
  simpa using this

end Verif.Order
