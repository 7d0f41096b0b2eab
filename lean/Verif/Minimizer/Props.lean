import Verif.Minimizer.Model
import Mathlib.Tactic.Linarith
import Mathlib.Tactic.NormNum
import Mathlib.Tactic.Ring
import Mathlib.Tactic.Positivity
import Mathlib.Analysis.SpecialFunctions.Pow.Real

/-! C62, C63: bracketing phase of the one-dimensional minimiser. -/
namespace Verif.Minimizer

/-- The points are positive and strictly ordered. -/
def Ordered (t : Tri) : Prop := 0 < t.a ∧ t.a < t.m ∧ t.m < t.b

/-- The middle cost is below both outer costs (and none of them is NaN). -/
def Valley (cost : ℝ → Option ℝ) (t : Tri) : Prop :=
  ∃ ca cm cb, cost t.a = some ca ∧ cost t.m = some cm ∧ cost t.b = some cb ∧ cm < ca ∧ cm < cb

theorem flt_iff (x y : Option ℝ) : flt x y = true ↔ ∃ a b, x = some a ∧ y = some b ∧ a < b := by
  cases x <;> cases y <;> simp [flt]

theorem mstep_next (cost : ℝ → Option ℝ) (t t' : Tri) (ho : Ordered t) (h : mstep cost t = .next t') :
    Ordered t' := by
  obtain ⟨h1, h2, h3⟩ := ho
  unfold mstep at h
  simp only at h
  split at h
  · cases h
  · split at h
    · injection h with e; subst e; exact ⟨by simp only; linarith, by simp only; linarith, h2⟩
    · split at h
      · injection h with e; subst e; exact ⟨by simp only; linarith, h3, by simp only; linarith⟩
      · split at h
        · split at h
          · injection h with e; subst e
            exact ⟨h1, by simp only; linarith, by simp only; linarith⟩
          · cases h
        · split at h
          · split at h
            · injection h with e; subst e
              exact ⟨by simp only; linarith, by simp only; linarith, by simp only; linarith⟩
            · cases h
          · cases h

theorem mstep_handover (cost : ℝ → Option ℝ) (t t' : Tri) (h : mstep cost t = .handover t') :
    t' = t ∧ Valley cost t := by
  unfold mstep at h
  simp only at h
  split at h
  · rename_i hc
    injection h with e
    rw [Bool.and_eq_true, flt_iff, flt_iff] at hc
    obtain ⟨⟨m, a, h1, h2, h3⟩, ⟨m', b, h4, h5, h6⟩⟩ := hc
    rw [h1] at h4; injection h4 with e'; subst e'
    exact ⟨e.symm, a, m, b, h2, h1, h5, h3, h6⟩
  · split at h
    · cases h
    · split at h
      · cases h
      · split at h
        · split at h <;> cases h
        · split at h
          · split at h <;> cases h
          · cases h

/-- **C62**.  For every cost function (also one returning NaN) and every positive ordered start triple:
whenever the bracketing phase hands over to the minimiser, the three points are positive and ordered and
the middle cost is below both outer costs. -/
theorem c62_handover (cost : ℝ → Option ℝ) (fuel : ℕ) (t t' : Tri) (ho : Ordered t)
    (h : mloop cost fuel t = some (.handover t')) : Ordered t' ∧ Valley cost t' := by
  induction fuel generalizing t with
  | zero => cases h
  | succ k ih =>
    rw [mloop] at h
    cases hs : mstep cost t with
    | next u => rw [hs] at h; exact ih u (mstep_next cost t u ho hs) h
    | handover u =>
      rw [hs] at h
      simp only [Option.some.injEq, Outcome.handover.injEq] at h
      subst h
      obtain ⟨e, hv⟩ := mstep_handover cost t u hs
      rw [e]; exact ⟨ho, hv⟩
    | giveUp u => rw [hs] at h; simp at h
    | throws => rw [hs] at h; simp at h

/-- **C62** for the start values used in the program. -/
theorem c62_start (s : ℝ) (hs : 0 < s) : Ordered (start s) :=
  ⟨by simp only [start]; linarith, by simp only [start]; linarith, by simp only [start]; linarith⟩

/-- A cost that is NaN everywhere is reported by an exception. -/
theorem c62_nan_throws (t : Tri) (k : ℕ) : mloop (fun _ => none) (k + 1) t = some .throws := by
  have : mstep (fun _ => none) t = .throws := by simp [mstep, flt, fclose]
  rw [mloop, this]

/-- Strictly decreasing up to the minimum and strictly increasing after it, on the positive axis. -/
def Unimodal (c : ℝ → ℝ) (x₀ : ℝ) : Prop :=
  0 < x₀ ∧ (∀ x y, 0 < x → x < y → y ≤ x₀ → c y < c x) ∧ (∀ x y, x₀ ≤ x → x < y → c x < c y)

/-- A cost function that is never NaN. -/
def total (c : ℝ → ℝ) : ℝ → Option ℝ := fun x => some (c x)

theorem mstep_total (c : ℝ → ℝ) (t : Tri) :
    (c t.m < c t.a → c t.m < c t.b → mstep (total c) t = .handover t) ∧
    (¬ (c t.m < c t.a ∧ c t.m < c t.b) → c t.a < c t.b → mstep (total c) t = .next ⟨t.a / 2, t.a, t.m⟩) ∧
    (¬ (c t.m < c t.a ∧ c t.m < c t.b) → c t.b < c t.a → mstep (total c) t = .next ⟨t.m, t.b, t.b * 1.5⟩) := by
  refine ⟨fun h1 h2 => ?_, fun h1 h2 => ?_, fun h1 h2 => ?_⟩
  · simp [mstep, total, flt, h1, h2]
  · have h1' : (decide (c t.m < c t.a) && decide (c t.m < c t.b)) = false := by
      rw [Bool.eq_false_iff]; simpa using h1
    simp [mstep, total, flt, h1', h2]
  · have h1' : (decide (c t.m < c t.a) && decide (c t.m < c t.b)) = false := by
      rw [Bool.eq_false_iff]; simpa using h1
    simp [mstep, total, flt, h1', h2, not_lt.mpr h2.le]

/-- Once the right cost is above the middle cost, only shrinking passes follow and the loop ends. -/
theorem shrink_phase (c : ℝ → ℝ) (x₀ : ℝ) (hu : Unimodal c x₀) :
    ∀ (N : ℕ) (t : Tri), Ordered t → c t.m < c t.b → t.a ≤ x₀ * 2 ^ N →
      (∀ j : ℕ, c (t.a / 2 ^ (j + 1)) ≠ c (t.a / 2 ^ j)) → c t.a ≠ c t.m →
      ∃ t', mloop (total c) (N + 2) t = some (.handover t') := by
  intro N
  induction N with
  | zero =>
    intro t ho hb ha _ hm
    obtain ⟨h1, h2, h3⟩ := ho
    by_cases hc : c t.m < c t.a
    · exact ⟨t, by rw [mloop, (mstep_total c t).1 hc hb]⟩
    · have hlt : c t.a < c t.m := lt_of_le_of_ne (not_lt.mp hc) hm
      have hdec : c t.a < c (t.a / 2) := hu.2.1 _ _ (by linarith) (by linarith) (by simpa using ha)
      refine ⟨⟨t.a / 2, t.a, t.m⟩, ?_⟩
      rw [mloop, (mstep_total c t).2.1 (fun h => hc h.1) (by linarith)]
      show mloop (total c) 1 ⟨t.a / 2, t.a, t.m⟩ = _
      rw [mloop, (mstep_total c ⟨t.a / 2, t.a, t.m⟩).1 hdec hlt]
  | succ N ih =>
    intro t ho hb ha hj hm
    obtain ⟨h1, h2, h3⟩ := ho
    by_cases hc : c t.m < c t.a
    · exact ⟨t, by rw [mloop, (mstep_total c t).1 hc hb]⟩
    · have hlt : c t.a < c t.m := lt_of_le_of_ne (not_lt.mp hc) hm
      obtain ⟨t', ht'⟩ := ih ⟨t.a / 2, t.a, t.m⟩ ⟨by simp only; linarith, by simp only; linarith, h2⟩ hlt
        (by simp only; rw [pow_succ] at ha; linarith)
        (fun j => by
          simp only
          have := hj (j + 1)
          rw [div_div, div_div, ← pow_succ', ← pow_succ']; exact this)
        (by simpa using hj 0)
      refine ⟨t', ?_⟩
      rw [mloop, (mstep_total c t).2.1 (fun h => hc h.1) (by linarith)]
      exact ht'

/-- Once the left cost is above the middle cost, only growing passes follow and the loop ends. -/
theorem grow_phase (c : ℝ → ℝ) (x₀ : ℝ) (hu : Unimodal c x₀) :
    ∀ (N : ℕ) (t : Tri), Ordered t → c t.m < c t.a → x₀ ≤ t.b * 1.5 ^ N →
      (∀ j : ℕ, c (t.b * 1.5 ^ (j + 1)) ≠ c (t.b * 1.5 ^ j)) → c t.b ≠ c t.m →
      ∃ t', mloop (total c) (N + 2) t = some (.handover t') := by
  intro N
  induction N with
  | zero =>
    intro t ho ha hb _ hm
    obtain ⟨h1, h2, h3⟩ := ho
    by_cases hc : c t.m < c t.b
    · exact ⟨t, by rw [mloop, (mstep_total c t).1 ha hc]⟩
    · have hlt : c t.b < c t.m := lt_of_le_of_ne (not_lt.mp hc) hm
      have hinc : c t.b < c (t.b * 1.5) := hu.2.2 _ _ (by simpa using hb) (by linarith)
      refine ⟨⟨t.m, t.b, t.b * 1.5⟩, ?_⟩
      rw [mloop, (mstep_total c t).2.2 (fun h => hc h.2) (by linarith)]
      show mloop (total c) 1 ⟨t.m, t.b, t.b * 1.5⟩ = _
      rw [mloop, (mstep_total c ⟨t.m, t.b, t.b * 1.5⟩).1 hlt hinc]
  | succ N ih =>
    intro t ho ha hb hj hm
    obtain ⟨h1, h2, h3⟩ := ho
    by_cases hc : c t.m < c t.b
    · exact ⟨t, by rw [mloop, (mstep_total c t).1 ha hc]⟩
    · have hlt : c t.b < c t.m := lt_of_le_of_ne (not_lt.mp hc) hm
      obtain ⟨t', ht'⟩ := ih ⟨t.m, t.b, t.b * 1.5⟩ ⟨by simp only; linarith, h3, by simp only; linarith⟩ hlt
        (by simp only; rw [pow_succ'] at hb; linarith)
        (fun j => by
          simp only
          have := hj (j + 1)
          rw [mul_assoc, mul_assoc, ← pow_succ', ← pow_succ']; exact this)
        (by simpa using hj 0)
      refine ⟨t', ?_⟩
      rw [mloop, (mstep_total c t).2.2 (fun h => hc h.2) (by linarith)]
      exact ht'

/-- **C63** (partial).  For a cost with a single minimum, and if no two of the points the loop can visit have
exactly the same cost, the bracketing phase ends and hands a bracket to the minimiser. -/
theorem c63_terminates_partial (c : ℝ → ℝ) (x₀ : ℝ) (hu : Unimodal c x₀) (t : Tri) (ho : Ordered t)
    (hja : ∀ j : ℕ, c (t.a / 2 ^ (j + 1)) ≠ c (t.a / 2 ^ j)) (hjb : ∀ j : ℕ, c (t.b * 1.5 ^ (j + 1)) ≠ c (t.b * 1.5 ^ j))
    (ham : c t.a ≠ c t.m) (hmb : c t.m ≠ c t.b) (hab : c t.a ≠ c t.b) :
    ∃ fuel t', mloop (total c) fuel t = some (.handover t') := by
  have h15 : (1:ℝ) < 1.5 := by norm_num
  obtain ⟨N, hN⟩ := pow_unbounded_of_one_lt (t.a / x₀) (by norm_num : (1:ℝ) < 2)
  rw [div_lt_iff₀ hu.1] at hN
  obtain ⟨M, hM⟩ := pow_unbounded_of_one_lt (x₀ / t.b) h15
  have hbpos : 0 < t.b := by obtain ⟨h1, h2, h3⟩ := ho; linarith
  rw [div_lt_iff₀ hbpos] at hM
  by_cases h1 : c t.m < c t.b
  · exact ⟨_, shrink_phase c x₀ hu N t ho h1 (by linarith) hja ham⟩
  · by_cases h2 : c t.m < c t.a
    · exact ⟨_, grow_phase c x₀ hu M t ho h2 (by linarith) hjb (Ne.symm hmb)⟩
    · exfalso
      obtain ⟨h3, h4, h5⟩ := ho
      have h1' := lt_of_le_of_ne (not_lt.mp h1) (Ne.symm hmb)
      have h2' := lt_of_le_of_ne (not_lt.mp h2) ham
      rcases le_total t.m x₀ with hx | hx
      · exact absurd (hu.2.1 _ _ h3 h4 hx) (by linarith)
      · exact absurd (hu.2.2 _ _ hx h5) (by linarith)

/-- **C63** is false: for a convex parabola whose minimum lies between the outer start values as the callers choose
them the loop alternates for ever between two triples (shrinking and growing in turn). -/
theorem c63_cycle_refuted :
    ∃ (c : ℝ → ℝ) (x₀ s : ℝ), Unimodal c x₀ ∧ 0 < s ∧ (start s).a < x₀ ∧ x₀ < (start s).b ∧
      ∀ fuel, mloop (total c) fuel (start s) = none := by
  refine ⟨fun x => (x - 3/2) * (x - 3/2), 3/2, 2, ⟨by norm_num, ?_, ?_⟩, by norm_num, by norm_num [start],
    by norm_num [start], ?_⟩
  · intro x y h1 h2 h3; nlinarith
  · intro x y h1 h2; nlinarith
  · set c : ℝ → ℝ := fun x => (x - 3/2) * (x - 3/2) with hc
    have s0 : mstep (total c) (start 2) = .next ⟨1/2, 1, 2⟩ := by
      have := (mstep_total c (start 2)).2.1 (by simp only [hc, start]; norm_num) (by simp only [hc, start]; norm_num)
      rw [this]; simp only [start]; norm_num
    have s1 : mstep (total c) ⟨1/2, 1, 2⟩ = .next ⟨1, 2, 3⟩ := by
      have := (mstep_total c ⟨1/2, 1, 2⟩).2.2 (by simp only [hc]; norm_num) (by simp only [hc]; norm_num)
      rw [this]; norm_num
    have s2 : mstep (total c) ⟨1, 2, 3⟩ = .next ⟨1/2, 1, 2⟩ := by
      have := (mstep_total c ⟨1, 2, 3⟩).2.1 (by simp only [hc]; norm_num) (by simp only [hc]; norm_num)
      rw [this]
    have key : ∀ fuel, mloop (total c) fuel ⟨1/2, 1, 2⟩ = none ∧ mloop (total c) fuel ⟨1, 2, 3⟩ = none := by
      intro fuel
      induction fuel with
      | zero => exact ⟨rfl, rfl⟩
      | succ k ih =>
        constructor
        · rw [mloop, s1]; exact ih.2
        · rw [mloop, s2]; exact ih.1
    intro fuel
    cases fuel with
    | zero => rfl
    | succ k => rw [mloop, s0]; exact (key k).1

/-- **C63** is false of monotone cost functions: the interval shrinks (or grows) for ever. -/
theorem c63_monotone_refuted (s : ℝ) (hs : 0 < s) :
    (∀ fuel, mloop (total fun x => x) fuel (start s) = none) ∧
    (∀ fuel, mloop (total fun x => -x) fuel (start s) = none) := by
  constructor
  · intro fuel
    have key : ∀ fuel t, Ordered t → mloop (total fun x => x) fuel t = none := by
      intro fuel
      induction fuel with
      | zero => intro t _; rfl
      | succ k ih =>
        intro t ho
        have hn := (mstep_total (fun x => x) t).2.1 (fun h => by obtain ⟨_, h2, _⟩ := ho; linarith [h.1])
          (by obtain ⟨_, h2, h3⟩ := ho; linarith)
        rw [mloop, hn]
        exact ih _ (mstep_next _ _ _ ho hn)
    exact key fuel _ (c62_start s hs)
  · intro fuel
    have key : ∀ fuel t, Ordered t → mloop (total fun x => -x) fuel t = none := by
      intro fuel
      induction fuel with
      | zero => intro t _; rfl
      | succ k ih =>
        intro t ho
        have hn := (mstep_total (fun x => -x) t).2.2 (fun h => by obtain ⟨_, _, h2⟩ := ho; linarith [h.2])
          (by obtain ⟨_, h2, h3⟩ := ho; linarith)
        rw [mloop, hn]
        exact ih _ (mstep_next _ _ _ ho hn)
    exact key fuel _ (c62_start s hs)

/-- A handover does occur: for the parabola with minimum 1 from the start values at scale 1. -/
example : mloop (total fun x => (x - 1) * (x - 1)) 1 (start 1) = some (.handover (start 1)) := by
  rw [mloop, (mstep_total _ (start 1)).1 (by simp only [start]; norm_num) (by simp only [start]; norm_num)]

end Verif.Minimizer
