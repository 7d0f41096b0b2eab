import Verif.FlowGrid.Model
import Verif.GridMap.Props
import Mathlib.Tactic.Linarith
import Mathlib.Tactic.FieldSimp
import Mathlib.Algebra.Order.Field.Rat
import Mathlib.Data.List.Chain
import Mathlib.Algebra.BigOperators.Group.List.Basic

/-! C19: the flow grid. -/
namespace Verif.FlowGrid

variable {K : Type} [Field K] [LinearOrder K] [IsStrictOrderedRing K]

/-- C19: with at least one step and a parametrisation whose two maps are inverse and strictly increasing on
the interval (`resubst` on auxiliary values), the grid without checkpoints has `n+1` points, starts at the
initial value, ends at the final value and is strictly decreasing. -/
theorem c19_base_grid {subst resubst : K → K} {fin ini : K} {n : Nat} (hn : 0 < n) (hlt : fin < ini)
    (hinv : ∀ x, fin ≤ x → x ≤ ini → resubst (subst x) = x) (hsub : subst fin < subst ini)
    (hmono : ∀ s t, subst fin ≤ s → s < t → t ≤ subst ini → resubst s < resubst t) :
    let g := baseGrid subst resubst fin ini n
    g.length = n + 1 ∧ g.head? = some ini ∧ g.getLast? = some fin ∧ g.Pairwise (· > ·) := by
  intro g
  have hn' : (0:K) < n := by exact_mod_cast hn
  set d := (subst fin - subst ini) / (n : K) with hd
  have hdn : d < 0 := div_neg_of_neg_of_pos (by linarith) hn'
  have hdmul : (n:K) * d = subst fin - subst ini := by rw [hd]; field_simp
  refine ⟨by simp [g, baseGrid], rfl, ?_, ?_⟩
  · obtain ⟨m, rfl⟩ : ∃ m, n = m + 1 := ⟨n - 1, by omega⟩
    simp only [g, baseGrid, List.range_succ, List.map_append, List.map_cons, List.map_nil]
    rw [← List.cons_append, List.getLast?_append_of_ne_nil _ (by simp), List.getLast?_singleton]
    have : subst ini + ((m:K) + 1) * ((subst fin - subst ini) / ((m+1 : ℕ) : K)) = subst fin := by
      push_cast at hdmul ⊢
      rw [hd] at hdmul; push_cast at hdmul; rw [hdmul]; ring
    rw [this, hinv fin le_rfl hlt.le]
  · have hpos : ∀ i : Nat, i < n → subst fin ≤ subst ini + ((i:K) + 1) * d ∧
        subst ini + ((i:K) + 1) * d < subst ini := by
      intro i hi
      have hi' : (i:K) + 1 ≤ n := by exact_mod_cast hi
      have hi0 : (0:K) ≤ i := Nat.cast_nonneg i
      constructor
      · have : (n:K) * d ≤ ((i:K) + 1) * d := mul_le_mul_of_nonpos_right hi' hdn.le
        linarith
      · nlinarith
    simp only [g, baseGrid, List.pairwise_cons]
    constructor
    · intro x hx
      obtain ⟨i, hi, rfl⟩ := List.mem_map.mp hx
      obtain ⟨a, b⟩ := hpos i (List.mem_range.mp hi)
      have := hmono _ _ a b le_rfl
      rwa [hinv ini hlt.le le_rfl] at this
    · rw [List.pairwise_map]
      refine (List.pairwise_lt_range).imp_of_mem ?_
      intro i j hi hj hij
      have hij' : (i:K) < j := by exact_mod_cast hij
      refine hmono _ _ (hpos j (List.mem_range.mp hj)).1 ?_ (hpos i (List.mem_range.mp hi)).2.le
      have := mul_lt_mul_of_neg_right hij' hdn
      linarith

/-- The default flow (square-root parametrisation, from 19.8 to 0.1) meets the hypotheses of
`c19_base_grid`. -/
example : ∃ n : Nat, 0 < n ∧ (0.1 : ℝ) < 19.8 ∧
    (∀ x : ℝ, 0.1 ≤ x → x ≤ 19.8 → GridMap.sqrtLam (GridMap.sqrtT x) = x) ∧
    GridMap.sqrtT 0.1 < GridMap.sqrtT 19.8 ∧
    (∀ s t, GridMap.sqrtT 0.1 ≤ s → s < t → t ≤ GridMap.sqrtT 19.8 →
      GridMap.sqrtLam s < GridMap.sqrtLam t) := by
  refine ⟨50, by norm_num, by norm_num, fun x _ _ => GridMap.c20_sqrt.back x,
    GridMap.c20_sqrt.toT_strictMono (by norm_num), fun s t hs hst ht => ?_⟩
  exact GridMap.c20_sqrt.ofT_strictMono s t (lt_of_lt_of_le (GridMap.c20_sqrt.range _).1 hs) hst
    (lt_of_le_of_lt ht (GridMap.c20_sqrt.range _).2)

theorem insertPoint_perm (g : List K) (y : K) : (insertPoint g y).Perm (y :: g) := by
  unfold insertPoint
  refine List.perm_middle.trans ?_
  rw [List.takeWhile_append_dropWhile]

/-- Inserting into a descending list keeps it descending. -/
theorem insertPoint_sorted {g : List K} {y : K} (hg : g.Pairwise (· ≥ ·)) :
    (insertPoint g y).Pairwise (· ≥ ·) := by
  induction g with
  | nil => simp [insertPoint]
  | cons x g ih =>
    rw [List.pairwise_cons] at hg
    by_cases h : x < y
    · simp only [insertPoint, List.takeWhile_cons, List.dropWhile_cons, h, decide_true, Bool.not_true,
        Bool.false_eq_true, if_false, List.nil_append, List.pairwise_cons]
      refine ⟨?_, hg⟩
      intro z hz
      rcases List.mem_cons.mp hz with rfl | hz
      · exact h.le
      · exact (hg.1 z hz).trans h.le
    · have e : insertPoint (x :: g) y = x :: insertPoint g y := by
        simp [insertPoint, List.takeWhile_cons, List.dropWhile_cons, h]
      rw [e, List.pairwise_cons]
      refine ⟨?_, ih hg.2⟩
      intro z hz
      rcases List.mem_cons.mp ((insertPoint_perm g y).mem_iff.mp hz) with rfl | hz
      · exact not_lt.mp h
      · exact hg.1 z hz

theorem insertPoint_head {g : List K} {y a : K} (hg : g.head? = some a) (hy : y ≤ a) :
    (insertPoint g y).head? = some a := by
  cases g with
  | nil => simp at hg
  | cons x g =>
    simp only [List.head?_cons, Option.some.injEq] at hg
    subst hg
    simp [insertPoint, List.takeWhile_cons, not_lt.mpr hy]

theorem insertPoint_last {g : List K} {y b : K} (hg : g.Pairwise (· ≥ ·)) (hl : g.getLast? = some b)
    (hy : b ≤ y) : (insertPoint g y).getLast? = some b := by
  have hs := insertPoint_sorted (y := y) hg
  have hp := insertPoint_perm g y
  cases hlast : (insertPoint g y).getLast? with
  | none =>
    rw [List.getLast?_eq_none_iff] at hlast
    rw [hlast] at hp
    exact absurd hp.length_eq (by simp)
  | some z =>
    have hzmem := List.mem_of_getLast? hlast
    have hmin : ∀ w ∈ insertPoint g y, z ≤ w := by
      intro w hw
      obtain ⟨l, hl'⟩ := List.getLast?_eq_some_iff.mp hlast
      rw [hl'] at hw hs
      rw [List.pairwise_append] at hs
      rcases List.mem_append.mp hw with h | h
      · exact hs.2.2 w h z (by simp)
      · simp only [List.mem_singleton] at h; rw [h]
    have hbmem : b ∈ insertPoint g y := hp.mem_iff.mpr (List.mem_cons_of_mem _ (List.mem_of_getLast? hl))
    have h1 := hmin b hbmem
    have h2 : b ≤ z := by
      rcases List.mem_cons.mp (hp.mem_iff.mp hzmem) with h | h
      · rw [h]; exact hy
      · obtain ⟨l, hl'⟩ := List.getLast?_eq_some_iff.mp hl
        rw [hl'] at h hg
        rw [List.pairwise_append] at hg
        rcases List.mem_append.mp h with h | h
        · exact hg.2.2 z h b (by simp)
        · simp only [List.mem_singleton] at h; rw [h]
    rw [le_antisymm h1 h2]

/-- C19 with checkpoints, if none is negative and none lies below the final value: the grid keeps its
endpoints, stays descending, and contains exactly its own points and the checkpoints not above the initial
value. -/
theorem c19_checkpoints_partial {g : List K} {ini fin : K} (hg : g.Pairwise (· ≥ ·))
    (hh : g.head? = some ini) (hl : g.getLast? = some fin) {cps : List K}
    (hpos : ∀ y ∈ cps, 0 ≤ y) (hfin : ∀ y ∈ cps, fin ≤ y) :
    let r := addPoints g cps
    r.Pairwise (· ≥ ·) ∧ r.head? = some ini ∧ r.getLast? = some fin ∧
      r.Perm (g ++ cps.filter (fun y => decide (y ≤ ini))) := by
  induction cps generalizing g with
  | nil => simp only [addPoints, List.filter_nil, List.append_nil]; exact ⟨hg, hh, hl, List.Perm.refl _⟩
  | cons y ys ih =>
    have h0 : ¬ y < 0 := not_lt.mpr (hpos y (by simp))
    simp only [addPoints, h0, if_false, hh, Option.any_some, decide_eq_true_eq]
    by_cases hy : y ≤ ini
    · simp only [hy, if_true]
      obtain ⟨a, b, c, d⟩ := ih (insertPoint_sorted (y := y) hg) (insertPoint_head hh hy)
        (insertPoint_last hg hl (hfin y (by simp))) (fun z hz => hpos z (by simp [hz]))
        (fun z hz => hfin z (by simp [hz]))
      refine ⟨a, b, c, d.trans ?_⟩
      rw [List.filter_cons_of_pos (by simpa using hy)]
      refine ((insertPoint_perm g y).append_right _).trans ?_
      exact List.perm_middle.symm
    · simp only [hy, if_false]
      obtain ⟨a, b, c, d⟩ := ih hg hh hl (fun z hz => hpos z (by simp [hz]))
        (fun z hz => hfin z (by simp [hz]))
      refine ⟨a, b, c, ?_⟩
      rw [List.filter_cons_of_neg (by simpa using hy)]
      exact d

/-- C19: the grid with checkpoints is strictly decreasing if the checkpoints are distinct and are not grid
points already. -/
theorem c19_strict_partial {g : List K} {ini fin : K} (hg : g.Pairwise (· > ·))
    (hh : g.head? = some ini) (hl : g.getLast? = some fin) {cps : List K}
    (hpos : ∀ y ∈ cps, 0 ≤ y) (hfin : ∀ y ∈ cps, fin ≤ y) (hnd : cps.Nodup) (hnew : ∀ y ∈ cps, y ∉ g) :
    (addPoints g cps).Pairwise (· > ·) := by
  obtain ⟨a, _, _, d⟩ := c19_checkpoints_partial (hg.imp (fun h => le_of_lt h)) hh hl hpos hfin
  have hgn : g.Nodup := hg.imp (fun h => ne_of_gt h)
  have hn : (addPoints g cps).Nodup := by
    rw [d.nodup_iff]
    refine hgn.append (hnd.filter _) ?_
    intro x hx hy
    exact hnew x (List.mem_of_mem_filter hy) hx
  exact (a.and hn).imp (fun ⟨h1, h2⟩ => lt_of_le_of_ne h1 (Ne.symm h2))

/-- Non-trivial instance: checkpoints 7 and 3 in the grid 10, 6, 1; the checkpoint 12 is above the initial
value. -/
example : addPoints ([10, 6, 1] : List ℚ) [12, 7, 3] = [10, 7, 6, 3, 1] := by decide +kernel

/-- C19 is false for checkpoints below the final value: they are appended behind the final value. -/
theorem c19_below_final_refuted :
    flowGrid (K := ℚ) id id 1 10 3 [1/2] = [10, 7, 4, 1, 1/2] := by decide +kernel

/-- C19 is false if a negative checkpoint comes first: the later ones are lost. -/
theorem c19_negative_refuted : flowGrid (K := ℚ) id id 1 10 3 [-1, 5] = [10, 7, 4, 1] := by decide +kernel

/-- C19 is false if a checkpoint is a grid point already: the grid then has a step of size zero. -/
theorem c19_duplicate_refuted : flowGrid (K := ℚ) id id 1 10 3 [4] = [10, 7, 4, 4, 1] ∧
    0 ∈ stepSizes (flowGrid (K := ℚ) id id 1 10 3 [4]) := by decide +kernel

/-- C19 is false for ascending flows: checkpoints inside the interval are not inserted. -/
theorem c19_ascending_refuted : flowGrid (K := ℚ) id id 10 1 3 [5] = [1, 4, 7, 10] := by decide +kernel

/-- C19: the step sizes of a grid add up to the length of the interval. -/
theorem c19_step_sizes (a : K) (l : List K) :
    (stepSizes (a :: l)).length = l.length ∧
    (stepSizes (a :: l)).sum = (a :: l).getLast (by simp) - a := by
  induction l generalizing a with
  | nil => simp [stepSizes]
  | cons b l ih =>
    obtain ⟨h1, h2⟩ := ih b
    simp only [stepSizes, List.length_cons, h1, List.sum_cons, h2, true_and]
    rw [List.getLast_cons (a := a) (l := b :: l) (by simp)]
    ring

/-- C19: if the interaction values are ordered such that the derived flow parameters are non-negative, the
checkpoints are exactly the derived values up to the initial one. -/
theorem c19_derived_checkpoints {U Gamma lini : K} {us : List K}
    (hpos : ∀ u ∈ us, 0 ≤ 2 * U / u - Gamma) :
    checkpoints U Gamma lini us = (us.map (fun u => 2 * U / u - Gamma)).filter (fun y => decide (y ≤ lini)) := by
  induction us with
  | nil => rfl
  | cons u us ih =>
    have h0 : ¬ (2 * U / u - Gamma < 0) := not_lt.mpr (hpos u (by simp))
    have := ih (fun v hv => hpos v (by simp [hv]))
    simp only [checkpoints, h0, if_false, List.map_cons, List.filter_cons, decide_eq_true_eq, this]

end Verif.FlowGrid
