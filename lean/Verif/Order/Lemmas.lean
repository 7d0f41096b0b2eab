import Verif.Order.Spec
import Verif.Order.Stages

/-! One step of the solver, and the distance of a step from the flow. -/
namespace Verif.Order
open Filter Topology Verif.ODE Verif.Accuracy

variable {W : Type} [NormedAddCommGroup W] [NormedSpace ℝ W] {E : Type} [NormedAddCommGroup E] [NormedSpace ℝ E]

/-- The equation with the flow variable as part of the state. -/
noncomputable def field (p : FlowParam ℝ) (f : E → ℝ → E) (w : ℝ × E) : ℝ × E := (1, p.dlam w.1 • f w.2 (p.lam w.1))

theorem stage_fst (T : Tableau) (p : FlowParam ℝ) (f : E → ℝ → E) (w : ℝ × E) (h : ℝ) (i : ℕ) : (stage T (field p f) w h i).1 = 1 := by
  rw [stage_def]; rfl

theorem stage_snd {T : Tableau} (H : Fit T) (p : FlowParam ℝ) (f : E → ℝ → E) (t : ℝ) (y : E) (h : ℝ) {i : ℕ} (hi : i < T.stages) :
    (stage T (field p f) (t, y) h i).2 = p.dlam (t + h * (T.getNode i : ℝ)) •
      f (y + h • ∑ j ∈ Finset.range i, ((T.getA i j : ℚ) : ℝ) • (stage T (field p f) (t, y) h j).2) (p.lam (t + h * (T.getNode i : ℝ))) := by
  have s1 : (∑ j ∈ Finset.range i, ((T.getA i j : ℚ) : ℝ) • stage T (field p f) (t, y) h j).1 = (T.getNode i : ℝ) := by
    rw [Prod.fst_sum, ← H.node i hi, sum_eq, Rat.cast_sum]
    exact Finset.sum_congr rfl fun j _ => by rw [Prod.smul_fst, stage_fst, smul_eq_mul, mul_one]
  have s2 : (∑ j ∈ Finset.range i, ((T.getA i j : ℚ) : ℝ) • stage T (field p f) (t, y) h j).2 =
      ∑ j ∈ Finset.range i, ((T.getA i j : ℚ) : ℝ) • (stage T (field p f) (t, y) h j).2 := by
    rw [Prod.snd_sum]; rfl
  rw [stage_def]
  show p.dlam (t + h * (∑ j ∈ Finset.range i, ((T.getA i j : ℚ) : ℝ) • stage T (field p f) (t, y) h j).1) •
    f (y + h • (∑ j ∈ Finset.range i, ((T.getA i j : ℚ) : ℝ) • stage T (field p f) (t, y) h j).2)
      (p.lam (t + h * (∑ j ∈ Finset.range i, ((T.getA i j : ℚ) : ℝ) • stage T (field p f) (t, y) h j).1)) = _
  rw [s1, s2]

omit [NormedSpace ℝ E] in
theorem list_sum (g : ℕ → E) (n : ℕ) : ((List.range n).map g).sum = ∑ j ∈ Finset.range n, g j := by
  induction n with
  | zero => simp
  | succ n ih => rw [List.range_succ, List.map_append, List.sum_append, ih, Finset.sum_range_succ]; simp

omit [NormedSpace ℝ E] in
theorem getD_range (g : ℕ → E) {i n : ℕ} (hi : i < n) : ((List.range n).map g).getD i 0 = g i := by
  rw [List.getD_eq_getElem?_getD, List.getElem?_eq_getElem (by simpa using hi), Option.getD_some]
  simp

theorem loop_eq {T : Tableau} (H : Fit T) (p : FlowParam ℝ) (f : E → ℝ → E) (t : ℝ) (y : E) (h : ℝ) (n m : ℕ) (hm : m + n ≤ T.stages) :
    stageLoop T p f y t h n ((List.range m).map fun i => (stage T (field p f) (t, y) h i).2) = (List.range (m + n)).map fun i => (stage T (field p f) (t, y) h i).2 := by
  induction n generalizing m with
  | zero => rfl
  | succ n ih =>
    rw [stageLoop]
    simp only [List.length_map, List.length_range]
    have st : stageState T y h ((List.range m).map fun i => (stage T (field p f) (t, y) h i).2) m =
        y + h • ∑ j ∈ Finset.range m, ((T.getA m j : ℚ) : ℝ) • (stage T (field p f) (t, y) h j).2 := by
      rw [stage_eq, list_sum, Finset.smul_sum]
      congr 1
      refine Finset.sum_congr rfl fun j hj => ?_
      rw [getD_range _ (Finset.mem_range.1 hj), smul_smul]
    rw [st, ← stage_snd H p f t y h (show m < T.stages by omega)]
    have := ih (m + 1) (by omega)
    rw [List.range_succ, List.map_append, List.map_singleton] at this
    rw [this, show m + 1 + n = m + (n + 1) by omega]

theorem slopes_eq {T : Tableau} (H : Fit T) (p : FlowParam ℝ) (f : E → ℝ → E) (t : ℝ) (y : E) (h : ℝ) :
    slopes T p f y (f y (p.lam t)) t h = (List.range T.stages).map fun i => (stage T (field p f) (t, y) h i).2 := by
  have := loop_eq H p f t y h (T.stages - 1) 1 (by have := H.pos; omega)
  rw [show 1 + (T.stages - 1) = T.stages by have := H.pos; omega] at this
  rw [← this, slopes]
  congr 1
  have := H.node 0 H.pos
  simp only [List.range_zero, List.map_nil, List.sum_nil] at this
  rw [List.range_one, List.map_singleton, stage_snd H p f t y h H.pos, ← this]
  simp

theorem combine_after {T : Tableau} (H : Fit T) (b : List ℚ) (p : FlowParam ℝ) (f : E → ℝ → E) (t : ℝ) (y : E) (h : ℝ) :
    combine b y h (slopes T p f y (f y (p.lam t)) t h) = (after T b (field p f) (t, y) h).2 := by
  rw [combine_eq, slopes_eq H, list_sum, after, Prod.snd_add, Prod.smul_snd, Prod.snd_sum, Finset.smul_sum, List.length_map, List.length_range]
  congr 1
  refine Finset.sum_congr rfl fun j hj => ?_
  rw [getD_range _ (Finset.mem_range.1 hj), Prod.smul_snd, smul_smul]

theorem step_after {T : Tableau} (H : Fit T) (p : FlowParam ℝ) (f : E → ℝ → E) (t : ℝ) (y : E) (h : ℝ) :
    step T p f y t h = (after T T.bHigh (field p f) (t, y) h).2 := combine_after H _ p f t y h

theorem error_after {T : Tableau} (H : Fit T) (p : FlowParam ℝ) (f : E → ℝ → E) (t : ℝ) (y : E) (h : ℝ) :
    (rkStep T p f y (f y (p.lam t)) t h).2 = (after T T.bHigh (field p f) (t, y) h).2 - (after T T.bLow (field p f) (t, y) h).2 := by
  rw [← combine_after H, ← combine_after H, combine_eq, combine_eq, add_sub_add_left_eq_sub, list_sum, list_sum, ← Finset.sum_sub_distrib]
  show errorVec T h _ = _
  set k := slopes T p f y (f y (p.lam t)) t h with hk
  have len : k.length = T.stages := by rw [hk, slopes_eq H, List.length_map, List.length_range]
  have pos := H.pos
  obtain ⟨n, hn⟩ : ∃ n, k.length = n + 1 := ⟨k.length - 1, by omega⟩
  rw [errorVec, Accuracy.foldl_add, hn, Nat.add_sub_cancel, Finset.sum_range_succ', add_comm]
  congr 1
  · rw [List.range'_eq_map_range, List.map_map, list_sum]
    refine Finset.sum_congr rfl fun j _ => ?_
    simp only [Function.comp, Tableau.getErrorB]
    rw [add_comm 1 j]
    push_cast
    module
  · simp only [Tableau.getErrorB]
    push_cast
    module

section Local
variable {F : W → W} {Y : ℝ → W} {J : Set ℝ} (hJ : IsOpen J) (hY : ∀ t ∈ J, HasDerivAt Y (F (Y t)) t) (hF : ∀ t ∈ J, ContDiffAt ℝ 6 F (Y t))

include hJ hY hF in
/-- The flow is as smooth as the right-hand side. -/
theorem flow_smooth : ContDiffOn ℝ 6 Y J := by
  have key : ∀ n : ℕ, n ≤ 6 → ContDiffOn ℝ n Y J := by
    intro n
    induction n with
    | zero =>
      intro _
      exact contDiffOn_zero.2 fun t ht => (hY t ht).continuousAt.continuousWithinAt
    | succ n ih =>
      intro hn
      have c : ContDiffOn ℝ n (fun t => F (Y t)) J := fun t ht =>
        ContDiffAt.comp_contDiffWithinAt t ((hF t ht).of_le (by exact_mod_cast (show n ≤ 6 by omega))) (ih (by omega) t ht)
      have := (contDiffOn_succ_iff_deriv_of_isOpen (n := n) (f := Y) hJ).2 ⟨fun t ht => (hY t ht).differentiableAt.differentiableWithinAt, by simp,
        c.congr fun t ht => (hY t ht).deriv⟩
      exact_mod_cast this
  exact key 6 le_rfl

include hJ hY hF in
theorem local_error {T : Tableau} {b : List ℚ} {p : ℕ} (hC : Conditions T b p) (hp : p ≤ 5) {t : ℝ} (ht : t ∈ J) :
    ∃ C, 0 ≤ C ∧ ∀ᶠ z in 𝓝 (t, (0 : ℝ)), ‖after T b F (Y z.1) z.2 - Y (z.1 + z.2)‖ ≤ C * |z.2| ^ (p + 1) := by
  have sm : ∀ t ∈ J, ContDiffAt ℝ 6 Y t := fun t ht => (flow_smooth hJ hY hF).contDiffAt (hJ.mem_nhds ht)
  have le6 : ((p + 1 : ℕ) : WithTop ℕ∞) ≤ 6 := by exact_mod_cast (show p + 1 ≤ 6 by omega)
  have s1 : ∀ t ∈ J, ContDiffAt ℝ 6 (fun z : ℝ × ℝ => after T b F (Y z.1) z.2) (t, 0) := fun t ht => by
    refine ContDiffAt.comp (g := fun z : W × ℝ => after T b F z.1 z.2) (f := fun z : ℝ × ℝ => (Y z.1, z.2)) (t, 0) (after_smooth T b (hF t ht)) ?_
    exact (ContDiffAt.comp (g := Y) (t, (0 : ℝ)) (sm t ht) contDiffAt_fst).prodMk contDiffAt_snd
  have s2 : ∀ t ∈ J, ContDiffAt ℝ 6 (fun z : ℝ × ℝ => Y (z.1 + z.2)) (t, 0) := fun t ht =>
    ContDiffAt.comp (g := Y) (t, (0 : ℝ)) (by simpa using sm t ht) (contDiffAt_fst.add contDiffAt_snd)
  refine small (p + 1) (e := fun z => after T b F (Y z.1) z.2 - Y (z.1 + z.2)) (((s1 t ht).sub (s2 t ht)).of_le le6) fun k hk => ?_
  filter_upwards [hJ.mem_nhds ht] with s hs
  have k6 : (k : WithTop ℕ∞) ≤ 6 := by exact_mod_cast (show k ≤ 6 by omega)
  have c1 := section_smooth ((s1 s hs).of_le k6)
  have c2 := section_smooth ((s2 s hs).of_le k6)
  have := iteratedDeriv_fun_sub c1 c2
  simp only at this ⊢
  rw [this, sub_eq_zero]
  refine same_derivatives ((hF s hs).of_le (by norm_num)) hC hp (Y := fun h => Y (s + h)) ?_ (by simp) ?_ (by omega)
  · have : ∀ᶠ h in 𝓝 (0 : ℝ), s + h ∈ J := by
      refine (continuous_const_add s).continuousAt.eventually_mem ?_
      simpa using hJ.mem_nhds hs
    filter_upwards [this] with h hh
    exact (hY _ hh).comp_const_add s h
  · exact (section_smooth (s2 s hs)).of_le (by norm_num)

/-- A step depends on its start as the identity does, up to a multiple of the step size. -/
theorem local_lipschitz (T : Tableau) (b : List ℚ) {x : W} (hx : ContDiffAt ℝ 1 F x) :
    ∃ C, 0 ≤ C ∧ ∃ r > 0, ∀ u v h, ‖u - x‖ ≤ r → ‖v - x‖ ≤ r → |h| ≤ r → ‖after T b F u h - after T b F v h‖ ≤ (1 + C * |h|) * ‖u - v‖ := by
  have s : ContDiffAt ℝ 1 (fun z : W × ℝ => ∑ i ∈ Finset.range T.stages, ((b.getD i 0 : ℚ) : ℝ) • stage T F z.1 z.2 i) (x, 0) :=
    ContDiffAt.sum fun i _ => (stage_smooth T hx i).const_smul _
  obtain ⟨K, S, hS, hK⟩ := s.exists_lipschitzOnWith
  obtain ⟨r, r0, hr⟩ := Metric.mem_nhds_iff.1 hS
  refine ⟨K, K.2, r / 2, by linarith, fun u v h hu hv hh => ?_⟩
  have mem : ∀ u, ‖u - x‖ ≤ r / 2 → (u, h) ∈ S := fun u hu => hr (by
    rw [Metric.mem_ball, Prod.dist_eq, max_lt_iff, dist_eq_norm, dist_eq_norm, sub_zero, Real.norm_eq_abs]
    exact ⟨by linarith, by linarith⟩)
  have l := hK.dist_le_mul _ (mem u hu) _ (mem v hv)
  rw [dist_eq_norm, Prod.dist_eq, dist_self, max_eq_left dist_nonneg, dist_eq_norm] at l
  simp only [after]
  set a := ∑ i ∈ Finset.range T.stages, ((b.getD i 0 : ℚ) : ℝ) • stage T F u h i
  set c := ∑ i ∈ Finset.range T.stages, ((b.getD i 0 : ℚ) : ℝ) • stage T F v h i
  calc ‖u + h • a - (v + h • c)‖ = ‖(u - v) + h • (a - c)‖ := by congr 1; module
    _ ≤ ‖u - v‖ + |h| * ‖a - c‖ := by
      refine (norm_add_le _ _).trans ?_
      rw [norm_smul, Real.norm_eq_abs]
    _ ≤ ‖u - v‖ + |h| * (K * ‖u - v‖) := by
      have := mul_le_mul_of_nonneg_left l (abs_nonneg h)
      linarith
    _ = _ := by ring

include hJ hY hF in
/-- Both together, uniformly on a compact part of the flow. -/
theorem uniform {T : Tableau} {b : List ℚ} {p : ℕ} (hC : Conditions T b p) (hp : p ≤ 5) {I : Set ℝ} (hI : IsCompact I) (hIJ : I ⊆ J) :
    ∃ C, 0 ≤ C ∧ ∃ r > 0, ∀ t ∈ I, ∀ h, |h| ≤ r → ‖after T b F (Y t) h - Y (t + h)‖ ≤ C * |h| ^ (p + 1) ∧
      ∀ u, ‖u - Y t‖ ≤ r → ‖after T b F u h - after T b F (Y t) h‖ ≤ (1 + C * |h|) * ‖u - Y t‖ := by
  refine hI.induction_on (p := fun I => ∃ C, 0 ≤ C ∧ ∃ r > 0, ∀ t ∈ I, ∀ h, |h| ≤ r → ‖after T b F (Y t) h - Y (t + h)‖ ≤ C * |h| ^ (p + 1) ∧
      ∀ u, ‖u - Y t‖ ≤ r → ‖after T b F u h - after T b F (Y t) h‖ ≤ (1 + C * |h|) * ‖u - Y t‖) ?_ ?_ ?_ ?_
  · exact ⟨0, le_rfl, 1, one_pos, fun t ht => ht.elim⟩
  · rintro s s' hs ⟨C, C0, r, r0, h⟩
    exact ⟨C, C0, r, r0, fun t ht => h t (hs ht)⟩
  · rintro s s' ⟨C, C0, r, r0, h⟩ ⟨C', C0', r', r0', h'⟩
    refine ⟨max C C', C0.trans (le_max_left _ _), min r r', lt_min r0 r0', fun t ht x hx => ?_⟩
    have x0 := abs_nonneg x
    rcases ht with ht | ht
    · obtain ⟨a, c⟩ := h t ht x (hx.trans (min_le_left _ _))
      refine ⟨a.trans (mul_le_mul_of_nonneg_right (le_max_left _ _) (by positivity)), fun u hu => (c u (hu.trans (min_le_left _ _))).trans ?_⟩
      exact mul_le_mul_of_nonneg_right (add_le_add le_rfl (mul_le_mul_of_nonneg_right (le_max_left _ _) x0)) (norm_nonneg _)
    · obtain ⟨a, c⟩ := h' t ht x (hx.trans (min_le_right _ _))
      refine ⟨a.trans (mul_le_mul_of_nonneg_right (le_max_right _ _) (by positivity)), fun u hu => (c u (hu.trans (min_le_right _ _))).trans ?_⟩
      exact mul_le_mul_of_nonneg_right (add_le_add le_rfl (mul_le_mul_of_nonneg_right (le_max_right _ _) x0)) (norm_nonneg _)
  · intro t ht
    obtain ⟨C, C0, hc⟩ := local_error hJ hY hF hC hp (hIJ ht)
    obtain ⟨C', C0', r, r0, hl⟩ := local_lipschitz T b ((hF t (hIJ ht)).of_le (by norm_num))
    obtain ⟨r', r0', hr'⟩ := Metric.eventually_nhds_iff.1 hc
    have cont := (hY t (hIJ ht)).continuousAt
    have near : ∀ᶠ s in 𝓝 t, ‖Y s - Y t‖ ≤ r / 2 := by
      have := cont.eventually (Metric.closedBall_mem_nhds (Y t) (show 0 < r / 2 by linarith))
      filter_upwards [this] with s hs
      rwa [← dist_eq_norm]
    have near' : ∀ᶠ s in 𝓝 t, dist s t < r' := Metric.ball_mem_nhds t r0'
    refine ⟨_, mem_nhdsWithin_of_mem_nhds (near.and near'), max C C', C0.trans (le_max_left _ _), min (r / 2) (r' / 2), lt_min (by linarith) (by linarith), fun s hs h hh => ?_⟩
    obtain ⟨n1, n2⟩ := hs
    have x0 := abs_nonneg h
    have h1 := hh.trans (min_le_left _ _)
    have h2 := hh.trans (min_le_right _ _)
    refine ⟨(hr' (y := (s, h)) ?_).trans (mul_le_mul_of_nonneg_right (le_max_left _ _) (by positivity)), fun u hu => (hl u (Y s) h ?_ (by linarith) (by linarith)).trans ?_⟩
    · rw [Prod.dist_eq, max_lt_iff, Real.dist_eq h, sub_zero]
      exact ⟨n2, by linarith⟩
    · have := norm_add_le (u - Y s) (Y s - Y t)
      rw [sub_add_sub_cancel] at this
      have := hu.trans (min_le_left _ _)
      linarith
    · exact mul_le_mul_of_nonneg_right (add_le_add le_rfl (mul_le_mul_of_nonneg_right (le_max_right _ _) x0)) (norm_nonneg _)

end Local

end Verif.Order
