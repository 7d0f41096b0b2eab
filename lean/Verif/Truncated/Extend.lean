import Verif.Truncated.Poly

/-! Flows that stay bounded can be continued. -/
namespace Verif.Truncated
open Set Metric Topology

/-- Bounded and Lipschitz on every bounded set. -/
def Tame {X Y : Type} [NormedAddCommGroup X] [NormedAddCommGroup Y] (f : X → Y) : Prop :=
  ∀ R : ℝ, ∃ K : ℝ, 0 ≤ K ∧ ∀ x, ‖x‖ ≤ R → ‖f x‖ ≤ K ∧ ∀ y, ‖y‖ ≤ R → ‖f x - f y‖ ≤ K * ‖x - y‖

section
variable {X Y Z : Type} [NormedAddCommGroup X] [NormedSpace ℝ X] [NormedAddCommGroup Y] [NormedSpace ℝ Y] [NormedAddCommGroup Z] [NormedSpace ℝ Z]

theorem Tame.const (y : Y) : Tame fun _ : X => y := fun _ => ⟨‖y‖, norm_nonneg y, fun _ _ => ⟨le_rfl, fun _ _ => by simpa using mul_nonneg (norm_nonneg _) (norm_nonneg _)⟩⟩

theorem Tame.id : Tame fun x : X => x := fun R => ⟨max 1 R, zero_le_one.trans (le_max_left _ _), fun x hx => ⟨hx.trans (le_max_right _ _), fun y _ => by
  have := mul_le_mul_of_nonneg_right (le_max_left 1 R) (norm_nonneg (x - y))
  rwa [one_mul] at this⟩⟩

theorem Tame.fst {f : X → Y × Z} (hf : Tame f) : Tame fun x => (f x).1 := fun R => by
  obtain ⟨K, K0, hK⟩ := hf R
  exact ⟨K, K0, fun x hx => ⟨(norm_fst_le _).trans (hK x hx).1, fun y hy => (norm_fst_le (f x - f y)).trans ((hK x hx).2 y hy)⟩⟩

theorem Tame.snd {f : X → Y × Z} (hf : Tame f) : Tame fun x => (f x).2 := fun R => by
  obtain ⟨K, K0, hK⟩ := hf R
  exact ⟨K, K0, fun x hx => ⟨(norm_snd_le _).trans (hK x hx).1, fun y hy => (norm_snd_le (f x - f y)).trans ((hK x hx).2 y hy)⟩⟩

theorem Tame.eval {ι : Type} [Fintype ι] {F : ι → Type} [∀ i, NormedAddCommGroup (F i)] {f : X → ∀ i, F i} (hf : Tame f) (i : ι) : Tame fun x => f x i := fun R => by
  obtain ⟨K, K0, hK⟩ := hf R
  exact ⟨K, K0, fun x hx => ⟨(norm_le_pi_norm _ i).trans (hK x hx).1, fun y hy => (norm_le_pi_norm (f x - f y) i).trans ((hK x hx).2 y hy)⟩⟩

theorem Tame.add {f g : X → Y} (hf : Tame f) (hg : Tame g) : Tame fun x => f x + g x := fun R => by
  obtain ⟨K, K0, hK⟩ := hf R
  obtain ⟨M, M0, hM⟩ := hg R
  refine ⟨K + M, add_nonneg K0 M0, fun x hx => ⟨(norm_add_le _ _).trans (add_le_add (hK x hx).1 (hM x hx).1), fun y hy => ?_⟩⟩
  have : f x + g x - (f y + g y) = (f x - f y) + (g x - g y) := by abel
  rw [this, add_mul]
  exact (norm_add_le _ _).trans (add_le_add ((hK x hx).2 y hy) ((hM x hx).2 y hy))

theorem Tame.smul (c : ℝ) {f : X → Y} (hf : Tame f) : Tame fun x => c • f x := fun R => by
  obtain ⟨K, K0, hK⟩ := hf R
  refine ⟨|c| * K, by positivity, fun x hx => ⟨?_, fun y hy => ?_⟩⟩
  · rw [norm_smul, Real.norm_eq_abs]; exact mul_le_mul_of_nonneg_left (hK x hx).1 (abs_nonneg c)
  · rw [← smul_sub, norm_smul, Real.norm_eq_abs, mul_assoc]
    exact mul_le_mul_of_nonneg_left ((hK x hx).2 y hy) (abs_nonneg c)

theorem Tame.apply {f : X → Y →L[ℝ] Z} {g : X → Y} (hf : Tame f) (hg : Tame g) : Tame fun x => f x (g x) := fun R => by
  obtain ⟨K, K0, hK⟩ := hf R
  obtain ⟨M, M0, hM⟩ := hg R
  refine ⟨K * M + K * M, by positivity, fun x hx => ⟨?_, fun y hy => ?_⟩⟩
  · have := ((f x).le_opNorm (g x)).trans (mul_le_mul (hK x hx).1 (hM x hx).1 (norm_nonneg _) K0)
    have := mul_nonneg K0 M0
    linarith
  · have e : f x (g x) - f y (g y) = (f x - f y) (g x) + f y (g x - g y) := by
      rw [map_sub, _root_.sub_apply]; abel
    rw [e]
    have h1 := ((f x - f y).le_opNorm (g x)).trans (mul_le_mul ((hK x hx).2 y hy) (hM x hx).1 (norm_nonneg _) (by positivity))
    have h2 := ((f y).le_opNorm (g x - g y)).trans (mul_le_mul (hK y hy).1 ((hM x hx).2 y hy) (norm_nonneg _) K0)
    refine (norm_add_le _ _).trans ((add_le_add h1 h2).trans (le_of_eq ?_))
    ring

theorem Tame.pi {ι : Type} [Fintype ι] {F : ι → Type} [∀ i, NormedAddCommGroup (F i)] {f : X → ∀ i, F i} (h : ∀ i, Tame fun x => f x i) : Tame f := fun R => by
  choose K K0 hK using fun i => h i R
  have le : ∀ i, K i ≤ ∑ j, K j := fun i => Finset.single_le_sum (fun j _ => K0 j) (Finset.mem_univ i)
  have S0 : 0 ≤ ∑ j, K j := Finset.sum_nonneg fun j _ => K0 j
  refine ⟨∑ j, K j, S0, fun x hx => ⟨?_, fun y hy => ?_⟩⟩
  · exact (pi_norm_le_iff_of_nonneg S0).2 fun i => ((hK i x hx).1).trans (le i)
  · refine (pi_norm_le_iff_of_nonneg (by positivity)).2 fun i => ?_
    exact ((hK i x hx).2 y hy).trans (mul_le_mul_of_nonneg_right (le i) (norm_nonneg _))

theorem Tame.neg {f : X → Y} (hf : Tame f) : Tame fun x => -f x := fun R => by
  obtain ⟨K, K0, hK⟩ := hf R
  refine ⟨K, K0, fun x hx => ⟨by rw [norm_neg]; exact (hK x hx).1, fun y hy => ?_⟩⟩
  rw [← neg_sub', norm_neg]
  exact (hK x hx).2 y hy

theorem Tame.sub {f g : X → Y} (hf : Tame f) (hg : Tame g) : Tame fun x => f x - g x := by
  simpa [sub_eq_add_neg] using hf.add hg.neg
end

section
variable {A E : Type} [NormedAddCommGroup A] [NormedSpace ℝ A] [NormedAddCommGroup E] [NormedSpace ℝ E]
variable {G : A × E → E} {c : ℝ → A}

/-- `y` solves the equation between `a` and `t`. -/
def Sol (G : A × E → E) (c : ℝ → A) (a t : ℝ) (y : ℝ → E) : Prop := ∀ l ∈ Icc a t, HasDerivWithinAt y (G (c l, y l)) (Icc a t) l

/-- From all points of bounded size solutions run for the same time. -/
theorem uniform [CompleteSpace E] (hG : Tame G) (hGc : Continuous G) {a b : ℝ} (hc : ContinuousOn c (Icc a b)) (R : ℝ) :
    ∃ ε > 0, ∀ m t, a ≤ m → m ≤ t → t ≤ b → t ≤ m + ε → ∀ x₀ : E, ‖x₀‖ ≤ R → ∃ y, y m = x₀ ∧ Sol G c m t y := by
  obtain ⟨M, hM⟩ := isCompact_Icc.exists_bound_of_continuousOn hc
  obtain ⟨K, K0, hK⟩ := hG (max M (R + 1))
  have inb : ∀ l ∈ Icc a b, ∀ x : E, ‖x‖ ≤ R + 1 → ‖((c l, x) : A × E)‖ ≤ max M (R + 1) := fun l hl x hx => by
    rw [Prod.norm_mk]; exact max_le_max (hM l hl) hx
  refine ⟨1 / (K + 1), by positivity, fun m t h1 h2 h3 h4 x₀ hx => ?_⟩
  have near : ∀ x ∈ closedBall x₀ ((1 : NNReal) : ℝ), ‖x‖ ≤ R + 1 := fun x hx' => by
    rw [NNReal.coe_one, mem_closedBall, dist_eq_norm] at hx'
    have : ‖x‖ ≤ ‖x - x₀‖ + ‖x₀‖ := by simpa using norm_add_le (x - x₀) x₀
    linarith
  have sub : Icc m t ⊆ Icc a b := Icc_subset_Icc h1 h3
  have P : IsPicardLindelof (fun l x => G (c l, x)) (tmin := m) (tmax := t) ⟨m, le_rfl, h2⟩ x₀ 1 0 (Real.toNNReal K) (Real.toNNReal K) := by
    refine ⟨fun l hl => LipschitzOnWith.of_dist_le_mul fun x hx y hy => ?_, fun x hx => ?_, fun l hl x hx => ?_, ?_⟩
    · rw [Real.coe_toNNReal _ K0, dist_eq_norm, dist_eq_norm]
      have := (hK _ (inb l (sub hl) x (near x hx))).2 _ (inb l (sub hl) y (near y hy))
      rwa [Prod.mk_sub_mk, sub_self, Prod.norm_mk, norm_zero, max_eq_right (norm_nonneg _)] at this
    · exact hGc.comp_continuousOn ((hc.mono sub).prodMk continuousOn_const)
    · rw [Real.coe_toNNReal _ K0]
      exact (hK _ (inb l (sub hl) x (near x hx))).1
    · show (Real.toNNReal K : ℝ) * max (t - m) (m - m) ≤ ((1 : NNReal) : ℝ) - ((0 : NNReal) : ℝ)
      rw [Real.coe_toNNReal _ K0, sub_self, max_eq_left (by linarith), NNReal.coe_one, NNReal.coe_zero, sub_zero]
      have h5 : K * (t - m) ≤ (K + 1) * (1 / (K + 1)) := mul_le_mul (by linarith) (by linarith) (by linarith) (by positivity)
      rwa [mul_one_div_cancel (by positivity)] at h5
  exact P.exists_eq_forall_mem_Icc_hasDerivWithinAt₀

/-- Two solutions that meet make one. -/
theorem glue {a m t : ℝ} (h1 : a ≤ m) (h2 : m ≤ t) {y z : ℝ → E} (hy : Sol G c a m y) (hz : Sol G c m t z) (e : y m = z m) :
    ∃ u, (∀ l ≤ m, u l = y l) ∧ Sol G c a t u := by
  have um : ∀ l ≤ m, (if l ≤ m then y l else z l) = y l := fun l hl => if_pos hl
  have up : ∀ l ≥ m, (if l ≤ m then y l else z l) = z l := fun l hl => by
    rcases hl.eq_or_lt with rfl | h
    · rw [if_pos le_rfl, e]
    · rw [if_neg (not_le.2 h)]
  refine ⟨fun l => if l ≤ m then y l else z l, um, fun l hl => ?_⟩
  have hu : Icc a t = Icc a m ∪ Icc m t := (Icc_union_Icc_eq_Icc h1 h2).symm
  have left : l ≤ m → HasDerivWithinAt (fun l => if l ≤ m then y l else z l) (G (c l, if l ≤ m then y l else z l)) (Icc a m) l := fun h => by
    rw [um l h]
    exact (hy l ⟨hl.1, h⟩).congr (fun x hx => um x hx.2) (um l h)
  have right : m ≤ l → HasDerivWithinAt (fun l => if l ≤ m then y l else z l) (G (c l, if l ≤ m then y l else z l)) (Icc m t) l := fun h => by
    rw [up l h]
    exact (hz l ⟨h, hl.2⟩).congr (fun x hx => up x hx.1) (up l h)
  rw [hu]
  rcases lt_trichotomy l m with h | h | h
  · refine (left h.le).union (hasDerivWithinAt_iff_hasFDerivWithinAt.2 (HasFDerivWithinAt.of_notMem_closure ?_))
    rw [isClosed_Icc.closure_eq]
    exact fun hh => absurd hh.1 (not_le.2 h)
  · exact (left h.le).union (right h.ge)
  · refine (hasDerivWithinAt_iff_hasFDerivWithinAt.2 (HasFDerivWithinAt.of_notMem_closure ?_)).union (right h.le)
    rw [isClosed_Icc.closure_eq]
    exact fun hh => absurd hh.2 (not_le.2 h)

/-- If no solution from `x₀` exceeds the bound `R`, there is one over the whole interval. -/
theorem continues [CompleteSpace E] (hG : Tame G) (hGc : Continuous G) {a b : ℝ} (hab : a ≤ b) (hc : ContinuousOn c (Icc a b)) (x₀ : E) {R : ℝ}
    (hR : ∀ t ∈ Icc a b, ∀ y, y a = x₀ → Sol G c a t y → ‖y t‖ ≤ R) : ∃ y, y a = x₀ ∧ Sol G c a b y := by
  obtain ⟨ε, ε0, hε⟩ := uniform hG hGc hc R
  have start : Sol G c a a fun _ => x₀ := fun l hl => by
    have : Icc a a = {l} := by rw [Icc_self, le_antisymm hl.2 hl.1]
    rw [this]
    exact hasDerivWithinAt_iff_hasFDerivWithinAt.2 HasFDerivWithinAt.singleton
  have key : ∀ n : ℕ, ∃ y, y a = x₀ ∧ Sol G c a (min b (a + n * ε)) y := by
    intro n
    induction n with
    | zero => exact ⟨fun _ => x₀, rfl, by simpa [min_eq_right hab] using start⟩
    | succ n ih =>
      obtain ⟨y, y0, hy⟩ := ih
      set m := min b (a + n * ε) with hm
      have am : a ≤ m := le_min hab (by have : 0 ≤ (n : ℝ) * ε := by positivity
                                        linarith)
      have mt : m ≤ min b (a + (n + 1 : ℕ) * ε) := min_le_min_left b (by push_cast; nlinarith)
      have te : min b (a + (n + 1 : ℕ) * ε) ≤ m + ε := by
        rcases le_total b (a + n * ε) with h | h
        · rw [hm, min_eq_left h]; exact (min_le_left _ _).trans (by linarith)
        · rw [hm, min_eq_right h]; exact (min_le_right _ _).trans (by push_cast; linarith)
      obtain ⟨z, z0, hz⟩ := hε m _ am mt (min_le_left _ _) te (y m) (hR m ⟨am, min_le_left _ _⟩ y y0 hy)
      obtain ⟨u, u0, hu⟩ := glue am mt hy hz z0.symm
      exact ⟨u, (u0 a am).trans y0, hu⟩
  obtain ⟨n, hn⟩ := exists_nat_gt ((b - a) / ε)
  obtain ⟨y, y0, hy⟩ := key n
  rw [div_lt_iff₀ ε0] at hn
  rw [min_eq_left (by linarith)] at hy
  exact ⟨y, y0, hy⟩

end
end Verif.Truncated
