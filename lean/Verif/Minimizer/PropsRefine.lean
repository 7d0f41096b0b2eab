import Verif.Minimizer.Refine
import Verif.Minimizer.Props
import Mathlib.Tactic.Linarith
import Mathlib.Tactic.Positivity

/-! # C184: the minimisation proper -/
namespace Verif.Minimizer

/-- What is required of the algorithm of the library: from an ordered triple it returns an ordered triple inside of it, with a point in the middle that
is not worse. -/
def Sound (cost : ℝ → Option ℝ) (it : Tri → Tri) : Prop :=
  ∀ t x, Ordered t → cost t.m = some x → Ordered (it t) ∧ t.a ≤ (it t).a ∧ (it t).b ≤ t.b ∧ ∃ y, cost (it t).m = some y ∧ y ≤ x

/-- **C184** (passes). The search makes at least one pass and at most the allowed number, whatever the algorithm does, and stops earlier only with a
status that is not "continue". -/
theorem c184_passes (it : Tri → Tri) (ea er : ℝ) (n : ℕ) (t : Tri) :
    1 ≤ (refine it ea er n t).2.1 ∧ (refine it ea er n t).2.1 ≤ max 1 n ∧
    ((refine it ea er n t).2.1 < n → (refine it ea er n t).2.2 ≠ .goOn) := by
  have key : ∀ k t, 1 ≤ (refineLoop it ea er k t).2.1 ∧ (refineLoop it ea er k t).2.1 ≤ k + 1 ∧
      ((refineLoop it ea er k t).2.1 < k + 1 → (refineLoop it ea er k t).2.2 ≠ .goOn) := by
    intro k
    induction k with
    | zero => intro t; simp [refineLoop]
    | succ k ih =>
      intro t
      rw [refineLoop]
      simp only
      split
      · obtain ⟨h1, h2, h3⟩ := ih (it t)
        exact ⟨by simp, by simpa using h2, fun h => h3 (by simpa using h)⟩
      · rename_i h
        exact ⟨le_rfl, by simp, fun _ => h⟩
  obtain ⟨h1, h2, h3⟩ := key (n - 1) t
  refine ⟨h1, h2.trans (by omega), fun h => h3 (lt_of_lt_of_le h (by omega))⟩

/-- **C184** (never worse). With a sound algorithm the result lies inside the bracket, and its cost is not above that of the point the
search started from. -/
theorem c184_improves {cost : ℝ → Option ℝ} {it : Tri → Tri} (hs : Sound cost it) (ea er : ℝ) (n : ℕ) {t : Tri} {x : ℝ} (ho : Ordered t)
    (hx : cost t.m = some x) :
    Ordered (refine it ea er n t).1 ∧ t.a ≤ (refine it ea er n t).1.a ∧ (refine it ea er n t).1.b ≤ t.b ∧
    ∃ y, cost (refine it ea er n t).1.m = some y ∧ y ≤ x := by
  have key : ∀ k t x, Ordered t → cost t.m = some x → Ordered (refineLoop it ea er k t).1 ∧ t.a ≤ (refineLoop it ea er k t).1.a ∧
      (refineLoop it ea er k t).1.b ≤ t.b ∧ ∃ y, cost (refineLoop it ea er k t).1.m = some y ∧ y ≤ x := by
    intro k
    induction k with
    | zero => intro t x ho hx; exact hs t x ho hx
    | succ k ih =>
      intro t x ho hx
      obtain ⟨h1, h2, h3, y, h4, h5⟩ := hs t x ho hx
      rw [refineLoop]
      simp only
      split
      · obtain ⟨k1, k2, k3, z, k4, k5⟩ := ih (it t) y h1 h4
        exact ⟨k1, h2.trans k2, k3.trans h3, z, k4, k5.trans h5⟩
      · exact ⟨h1, h2, h3, y, h4, h5⟩
  exact key _ t x ho hx

/-- **C184** (meaning of success). If the search for a positive quantity ends with success, every point of the final bracket, hence every minimum in
it, differs from the result by less than the tolerance. -/
theorem c184_success {it : Tri → Tri} {ea er : ℝ} {n : ℕ} {t : Tri} (h : (refine it ea er n t).2.2 = .success)
    (ho : Ordered (refine it ea er n t).1) {x : ℝ} (h1 : (refine it ea er n t).1.a ≤ x) (h2 : x ≤ (refine it ea er n t).1.b) :
    |x - (refine it ea er n t).1.m| < ea + er * (refine it ea er n t).1.m := by
  have key : ∀ k t, (refineLoop it ea er k t).2.2 = testInterval (refineLoop it ea er k t).1.a (refineLoop it ea er k t).1.b ea er := by
    intro k
    induction k with
    | zero => intro t; rfl
    | succ k ih =>
      intro t
      rw [refineLoop]
      simp only
      split
      · exact ih _
      · rfl
  have e : (refine it ea er n t).2.2 = testInterval (refine it ea er n t).1.a (refine it ea er n t).1.b ea er := key _ t
  rw [e] at h
  generalize (refine it ea er n t).1 = u at *
  obtain ⟨o1, o2, o3⟩ := ho
  unfold testInterval at h
  split at h
  · cases h
  · rename_i hn
    push Not at hn
    simp only at h
    rw [if_pos (Or.inl ⟨o1, by linarith⟩)] at h
    split at h
    · rename_i hw
      rw [abs_of_pos o1, abs_of_pos (show 0 < u.b by linarith), min_eq_left (by linarith), abs_of_pos (by linarith)] at hw
      have : er * u.a ≤ er * u.m := mul_le_mul_of_nonneg_left o2.le hn.1
      rw [abs_lt]
      constructor <;> linarith
    · cases h

/-- The bracketing keeps the three points within a factor of two of each other. -/
def Near (t : Tri) : Prop := t.m ≤ 2 * t.a ∧ t.b ≤ 2 * t.m

theorem near_next (cost : ℝ → Option ℝ) (t t' : Tri) (ho : Ordered t) (hn : Near t) (h : mstep cost t = .next t') : Near t' := by
  obtain ⟨h1, h2, h3⟩ := ho
  obtain ⟨n1, n2⟩ := hn
  unfold mstep at h
  simp only at h
  split at h
  · cases h
  · split at h
    · injection h with e; subst e; exact ⟨by simp only; linarith, by simp only; linarith⟩
    · split at h
      · injection h with e; subst e; exact ⟨by simp only; linarith, by simp only; linarith⟩
      · split at h
        · split at h
          · injection h with e; subst e; exact ⟨by simp only; linarith, by simp only; linarith⟩
          · cases h
        · split at h
          · split at h
            · injection h with e; subst e; exact ⟨by simp only; linarith, by simp only; linarith⟩
            · cases h
          · cases h

/-- **C184** (bracket handed over). The bracket found from the scale of a grid spans at most a factor of four. -/
theorem c184_bracket (cost : ℝ → Option ℝ) (fuel : ℕ) {s : ℝ} (hs : 0 < s) {t : Tri} (h : mloop cost fuel (start s) = some (.handover t)) :
    t.b ≤ 4 * t.a := by
  have key : ∀ fuel u, Ordered u → Near u → mloop cost fuel u = some (.handover t) → Near t := by
    intro fuel
    induction fuel with
    | zero => intro u _ _ h; cases h
    | succ k ih =>
      intro u ho hn h
      rw [mloop] at h
      cases e : mstep cost u with
      | next v => rw [e] at h; exact ih v (mstep_next cost u v ho e) (near_next cost u v ho hn e) h
      | handover v =>
        rw [e] at h
        simp only [Option.some.injEq, Outcome.handover.injEq] at h
        rw [← h, (mstep_handover cost u v e).1]; exact hn
      | giveUp v => rw [e] at h; simp at h
      | throws => rw [e] at h; simp at h
  obtain ⟨n1, n2⟩ := key fuel (start s) (c62_start s hs) ⟨by simp only [start]; linarith, by simp only [start]; linarith⟩ h
  linarith

/-- **C184** (accuracy of the grid search). If every iteration of the algorithm shrinks the bracket to 70 percent or less, as a golden section
does, the twenty passes of the program suffice: the scale it gets differs by less than one percent from every point of the final bracket, and its
cost is not above that of the middle point of the bracket found first. -/
theorem c184_scale_partial {cost : ℝ → Option ℝ} {it : Tri → Tri} (hs : Sound cost it) (hw : ∀ t, Ordered t → (it t).b - (it t).a ≤ 0.7 * (t.b - t.a))
    {fuel : ℕ} {s : ℝ} (s0 : 0 < s) {t : Tri} (h : mloop cost fuel (start s) = some (.handover t)) :
    (refine it gridTolerances.1 gridTolerances.2 20 t).2.2 = .success ∧
    ∃ r, bestScale cost it fuel s = some (some r) ∧ t.a < r ∧ r < t.b ∧ (∃ x y, cost t.m = some x ∧ cost r = some y ∧ y ≤ x) ∧
      ∀ z, (refine it gridTolerances.1 gridTolerances.2 20 t).1.a ≤ z → z ≤ (refine it gridTolerances.1 gridTolerances.2 20 t).1.b → |z - r| < 0.01 * r := by
  obtain ⟨ho, ca, x, cb, -, hx, -, -, -⟩ := c62_handover cost fuel _ t (c62_start s s0) h
  have h4 := c184_bracket cost fuel s0 h
  have key : ∀ k t x, Ordered t → cost t.m = some x → (0.7 : ℝ) ^ (k + 1) * (t.b - t.a) < 0.01 * t.a →
      (refineLoop it 0 0.01 k t).2.2 = .success := by
    have one : ∀ u, Ordered u → u.b - u.a < 0.01 * u.a → testInterval u.a u.b 0 0.01 = .success := fun u ⟨o1, o2, o3⟩ hu => by
      unfold testInterval
      rw [if_neg (by push Not; exact ⟨by norm_num, le_rfl, by linarith⟩)]
      simp only
      rw [if_pos (Or.inl ⟨o1, by linarith⟩), abs_of_pos o1, abs_of_pos (show 0 < u.b by linarith), min_eq_left (by linarith), abs_of_pos (by linarith),
        if_pos (by linarith)]
    have notErr : ∀ u, Ordered u → testInterval u.a u.b 0 0.01 ≠ .error := fun u ⟨o1, o2, o3⟩ => by
      unfold testInterval
      rw [if_neg (by push Not; exact ⟨by norm_num, le_rfl, by linarith⟩)]
      simp only
      split <;> split <;> simp
    intro k
    induction k with
    | zero =>
      intro t x ho hx hk
      obtain ⟨h1, h2, -, -⟩ := hs t x ho hx
      have := hw t ho
      refine one _ h1 ?_
      rw [zero_add, pow_one] at hk
      linarith
    | succ k ih =>
      intro t x ho hx hk
      obtain ⟨h1, h2, -, y, h3, -⟩ := hs t x ho hx
      rw [refineLoop]
      simp only
      split
      · refine ih (it t) y h1 h3 ?_
        have := mul_le_mul_of_nonneg_left (hw t ho) (show (0 : ℝ) ≤ 0.7 ^ (k + 1) by positivity)
        rw [pow_succ, mul_assoc] at hk
        linarith
      · rename_i hne
        have := notErr _ h1
        cases e : testInterval (it t).a (it t).b 0 0.01 with
        | success => rfl
        | goOn => exact absurd e hne
        | error => exact absurd e this
  have suc : (refine it gridTolerances.1 gridTolerances.2 20 t).2.2 = .success := by
    refine key 19 t x ho hx ?_
    have h20 : (0.7 : ℝ) ^ (19 + 1) < 0.001 := by norm_num
    have : 0 < t.b - t.a := by linarith [ho.2.1, ho.2.2]
    have := mul_lt_mul_of_pos_right h20 this
    have := ho.1
    linarith
  obtain ⟨i1, i2, i3, y, i4, i5⟩ := c184_improves hs gridTolerances.1 gridTolerances.2 20 ho hx
  refine ⟨suc, (refine it gridTolerances.1 gridTolerances.2 20 t).1.m, by rw [bestScale, h], by linarith [i1.2.1], by linarith [i1.2.2],
    ⟨x, y, hx, i4, i5⟩, fun z h1 h2 => ?_⟩
  have := c184_success suc i1 h1 h2
  rwa [show gridTolerances.1 = 0 from rfl, show gridTolerances.2 = 0.01 from rfl, zero_add] at this

theorem mstep_giveUp (cost : ℝ → Option ℝ) (t t' : Tri) (h : mstep cost t = .giveUp t') : t' = t := by
  unfold mstep at h
  simp only at h
  split at h
  · cases h
  · split at h
    · cases h
    · split at h
      · cases h
      · split at h
        · split at h
          · cases h
          · injection h with e; exact e.symm
        · split at h
          · split at h
            · cases h
            · injection h with e; exact e.symm
          · cases h

/-- **C184** (usable). Whatever the cost function, a scale that the search returns is positive, so that the grid stays a grid. -/
theorem c184_positive {cost : ℝ → Option ℝ} {it : Tri → Tri} (hs : Sound cost it) {fuel : ℕ} {s r : ℝ} (s0 : 0 < s)
    (h : bestScale cost it fuel s = some (some r)) : 0 < r := by
  have give : ∀ fuel u t, Ordered u → mloop cost fuel u = some (.giveUp t) → Ordered t := by
    intro fuel
    induction fuel with
    | zero => intro u t _ h; cases h
    | succ k ih =>
      intro u t ho h
      rw [mloop] at h
      cases e : mstep cost u with
      | next v => rw [e] at h; exact ih v t (mstep_next cost u v ho e) h
      | handover v => rw [e] at h; simp at h
      | giveUp v =>
        rw [e] at h
        simp only [Option.some.injEq, Outcome.giveUp.injEq] at h
        rw [← h, mstep_giveUp cost u v e]; exact ho
      | throws => rw [e] at h; simp at h
  unfold bestScale at h
  split at h
  · cases h
  · rename_i t e
    obtain ⟨ho, ca, x, cb, -, hx, -, -, -⟩ := c62_handover cost fuel _ t (c62_start s s0) e
    obtain ⟨⟨i1, i2, -⟩, -⟩ := c184_improves hs gridTolerances.1 gridTolerances.2 20 ho hx
    injection h with h; injection h with h
    rw [← h]; linarith
  · rename_i t e
    obtain ⟨i1, i2, -⟩ := give fuel _ t (c62_start s s0) e
    injection h with h; injection h with h
    rw [← h]; linarith
  · cases h
  · cases h

/-- **C184** (nothing to gain, nothing to compare). If the cost does not depend on the scale the grid is left as it is; if it is never a number the caller gets
an exception, not a scale. -/
theorem c184_degenerate (it : Tri → Tri) (k : ℕ) (s v : ℝ) :
    bestScale (fun _ => some v) it (k + 1) s = some (some s) ∧ bestScale (fun _ => none) it (k + 1) s = some none := by
  constructor
  · have : mstep (fun _ => some v) (start s) = .giveUp (start s) := by simp [mstep, flt, fclose]
    rw [bestScale, mloop, this]; rfl
  · rw [bestScale, c62_nan_throws]

/-- **C184** is false for algorithms that shrink the bracket slowly: the search ends after twenty passes without the accuracy asked for, and the program
takes the result. -/
theorem c184_scale_refuted :
    ¬ ∀ (cost : ℝ → Option ℝ) (it : Tri → Tri), Sound cost it → ∀ fuel s, 0 < s → ∀ t, mloop cost fuel (start s) = some (.handover t) →
      (refine it gridTolerances.1 gridTolerances.2 20 t).2.2 = .success := by
  intro h
  have hm : mloop (total fun x => |x - 2|) 1 (start 2) = some (.handover (start 2)) := by
    have : mstep (total fun x => |x - 2|) (start 2) = .handover (start 2) := by
      simp only [mstep, start, total, flt]
      norm_num
    rw [mloop, this]
  have := h (total fun x => |x - 2|) id (fun t x ho hx => ⟨ho, le_rfl, le_rfl, x, hx, le_rfl⟩) 1 2 (by norm_num) _ hm
  have key : ∀ k, (refineLoop id 0 0.01 k (start 2)).2.2 = .goOn := by
    have one : testInterval (start 2).a (start 2).b 0 0.01 = .goOn := by
      unfold testInterval start
      norm_num
    intro k
    induction k with
    | zero => exact one
    | succ k ih => rw [refineLoop]; simp only [id]; rw [if_pos one]; exact ih
  have e : (refine id gridTolerances.1 gridTolerances.2 20 (start 2)).2.2 = .goOn := key 19
  rw [e] at this
  cases this

/-- **C184** (several parameters). Success means that the simplex is smaller than the absolute tolerance. -/
theorem c184_simplex_partial {S : Type} (it : S → S × Bool) (size : S → ℝ) (ea er : ℝ) (n : ℕ) (s : S) :
    (simplexMin it size ea er n s).2.1 ≤ max 1 n ∧
    ((simplexMin it size ea er n s).2.2 = .success → size (simplexMin it size ea er n s).1 < ea) := by
  have ts : ∀ x, testSize x ea = .success → x < ea := fun x h => by
    unfold testSize at h
    split at h
    · cases h
    · split at h
      · assumption
      · cases h
  have key : ∀ k s, (simplexLoop it size ea k s).2.1 ≤ k + 1 ∧ ((simplexLoop it size ea k s).2.2 = .success → size (simplexLoop it size ea k s).1 < ea) := by
    intro k
    induction k with
    | zero =>
      intro s
      rw [simplexLoop]
      split
      · exact ⟨le_rfl, fun h => by cases h⟩
      · exact ⟨le_rfl, ts _⟩
    | succ k ih =>
      intro s
      rw [simplexLoop]
      simp only
      split
      · exact ⟨by simp, fun h => by cases h⟩
      · split
        · exact ⟨by simpa using (ih (it s).1).1, (ih (it s).1).2⟩
        · exact ⟨by simp, ts _⟩
  exact ⟨(key (n - 1) s).1.trans (by omega), (key (n - 1) s).2⟩

/-- **C184** is false for the search with several parameters: with the tolerances of the program it never ends with success and never stops before the last
pass, however small the simplex has become (unless the algorithm reports an error). -/
theorem c184_simplex_refuted {S : Type} (it : S → S × Bool) (size : S → ℝ) (h0 : ∀ s, 0 ≤ size s) (n : ℕ) (s : S) :
    (simplexMin it size gridTolerances.1 gridTolerances.2 n s).2.2 ≠ .success ∧
    ((∀ s, (it s).2 = false) → (simplexMin it size gridTolerances.1 gridTolerances.2 n s).2.1 = max 1 n) := by
  have ts : ∀ s, testSize (size s) 0 = .goOn := fun s => by
    unfold testSize
    rw [if_neg (lt_irrefl _), if_neg (not_lt.2 (h0 s))]
  have key : ∀ k s, (simplexLoop it size 0 k s).2.2 ≠ .success ∧ ((∀ s, (it s).2 = false) → (simplexLoop it size 0 k s).2.1 = k + 1) := by
    intro k
    induction k with
    | zero =>
      intro s
      rw [simplexLoop, ts]
      split
      · exact ⟨by simp, fun _ => rfl⟩
      · exact ⟨by simp, fun _ => rfl⟩
    | succ k ih =>
      intro s
      rw [simplexLoop]
      simp only [ts, if_true]
      split
      · rename_i h
        exact ⟨by simp, fun hf => by rw [hf] at h; cases h⟩
      · exact ⟨(ih (it s).1).1, fun hf => by rw [(ih (it s).1).2 hf]⟩
  refine ⟨(key (n - 1) s).1, fun hf => ?_⟩
  have : (simplexMin it size gridTolerances.1 gridTolerances.2 n s).2.1 = n - 1 + 1 := (key (n - 1) s).2 hf
  omega

/-- An algorithm that closes in on the middle is sound for every cost function and shrinks fast enough. -/
example (cost : ℝ → Option ℝ) : Sound cost (fun t => ⟨t.m - 0.6 * (t.m - t.a), t.m, t.m + 0.6 * (t.b - t.m)⟩) ∧
    ∀ t : Tri, (t.m + 0.6 * (t.b - t.m)) - (t.m - 0.6 * (t.m - t.a)) ≤ 0.7 * (t.b - t.a) ∨ ¬ Ordered t := by
  refine ⟨fun t x ⟨h1, h2, h3⟩ hx => ⟨⟨by simp only; linarith, by simp only; linarith, by simp only; linarith⟩, by simp only; linarith, by simp only; linarith, x, hx, le_rfl⟩, fun t => ?_⟩
  by_cases h : Ordered t
  · obtain ⟨h1, h2, h3⟩ := h
    left; linarith
  · exact Or.inr h

end Verif.Minimizer
