import Verif.Parquet.Props

/-
C55: what the iteration remembers, and when the mixing factor is reduced.
-/
namespace Verif.Parquet
variable {S : Type}

/-- Loop state after `k` passes. -/
noncomputable def after (P : Problem S) (acc mix : ℝ) (s : S) : ℕ → LoopState S
  | 0 => loopStart mix s
  | k + 1 => (pass P acc (after P acc mix s k)).1

/-- Input of pass `i` (counted from 0). -/
noncomputable def input (P : Problem S) (acc mix : ℝ) (s : S) (i : ℕ) : S := (after P acc mix s i).stateIn

theorem pushBounded_drop {α : Type} (n : ℕ) (l : List α) (x : α) :
    pushBounded n (l.drop (l.length - n)) x = (l ++ [x]).drop ((l ++ [x]).length - n) := by
  simp only [pushBounded, List.length_append, List.length_drop, List.length_singleton]
  by_cases h : n ≤ l.length
  · have e : l.length + 1 - n = l.length - n + 1 := by omega
    rw [if_pos (by omega), e, ← List.drop_append_of_le_length (by omega), List.drop_drop]
  · rw [if_neg (by omega), show l.length - n = 0 by omega, show l.length + 1 - n = 0 by omega]
    simp

/-- **C55** (memory). After `k` passes the acceleration sees the last four pairs of output and input, in order; the
deviations kept are those of the last five passes, each the larger of the one of the self-energy and the one of the
vertex. -/
theorem c55_memory (P : Problem S) (acc mix : ℝ) (s : S) (k : ℕ) :
    (after P acc mix s k).iteration = k + 1 ∧
    (after P acc mix s k).hist =
      ((List.range k).map fun i => (P.rhs (input P acc mix s i), input P acc mix s i)).drop (k - 4) ∧
    (after P acc mix s k).devs =
      ((List.range k).map fun i =>
        fmax (P.relS (input P acc mix s i) (input P acc mix s (i + 1)))
          (P.relV (input P acc mix s i) (input P acc mix s (i + 1)))).drop (k - 5) := by
  induction k with
  | zero => simp [after, loopStart]
  | succ k ih =>
    obtain ⟨h1, h2, h3⟩ := ih
    have hin : input P acc mix s (k + 1) =
        P.upd (pushBounded 4 (after P acc mix s k).hist (P.rhs (input P acc mix s k), input P acc mix s k))
          (after P acc mix s k).mix := rfl
    refine ⟨by simp [after, pass, h1], ?_, ?_⟩
    · have := pushBounded_drop 4 ((List.range k).map fun i => (P.rhs (input P acc mix s i), input P acc mix s i))
        (P.rhs (input P acc mix s k), input P acc mix s k)
      simp only [List.length_append, List.length_map, List.length_range, List.length_singleton] at this
      rw [List.range_succ, List.map_append, List.map_singleton, ← this, ← h2]
      rfl
    · have := pushBounded_drop 5 ((List.range k).map fun i =>
        fmax (P.relS (input P acc mix s i) (input P acc mix s (i + 1)))
          (P.relV (input P acc mix s i) (input P acc mix s (i + 1))))
        (fmax (P.relS (input P acc mix s k) (input P acc mix s (k + 1)))
          (P.relV (input P acc mix s k) (input P acc mix s (k + 1))))
      simp only [List.length_append, List.length_map, List.length_range, List.length_singleton] at this
      rw [List.range_succ, List.map_append, List.map_singleton, ← this, ← h3]
      rfl

/-- **C55** (newest deviation). If both deviations of a pass are numbers, the larger one is recorded; if one of them is
not a number, the one of the self-energy. -/
theorem c55_newest (P : Problem S) (acc mix : ℝ) (s : S) (k : ℕ) :
    (∀ a b, P.relS (input P acc mix s k) (input P acc mix s (k + 1)) = some a →
      P.relV (input P acc mix s k) (input P acc mix s (k + 1)) = some b →
      (after P acc mix s (k + 1)).devs.getLast? = some (some (max a b))) ∧
    (P.relS (input P acc mix s k) (input P acc mix s (k + 1)) = none ∨
      P.relV (input P acc mix s k) (input P acc mix s (k + 1)) = none →
      (after P acc mix s (k + 1)).devs.getLast? = some (P.relS (input P acc mix s k) (input P acc mix s (k + 1)))) := by
  have e : (after P acc mix s (k + 1)).devs.getLast? =
      some (fmax (P.relS (input P acc mix s k) (input P acc mix s (k + 1)))
          (P.relV (input P acc mix s k) (input P acc mix s (k + 1)))) := by
    rw [(c55_memory P acc mix s (k + 1)).2.2, List.range_succ, List.map_append, List.map_singleton,
      List.drop_append_of_le_length (by simp)]
    simp
  rw [e]
  constructor
  · intro a b ha hb
    rw [ha, hb]
    by_cases h : a < b
    · simp [fmax, flt, h, max_eq_right h.le]
    · simp [fmax, flt, h, max_eq_left (not_lt.mp h)]
  · rintro (h | h)
    · rw [h]; simp [fmax, flt]
    · rw [h]; cases P.relS (input P acc mix s k) (input P acc mix s (k + 1)) <;> simp [fmax, flt]

/-- **C55** (what is run). The result of the solver is the state after some number of passes, at most the maximum. -/
theorem c55_passes (P : Problem S) (acc mix : ℝ) (s : S) (N : ℕ) :
    ∃ n, 1 ≤ n ∧ n ≤ max N 1 ∧ (solve P acc N mix s).1 = after P acc mix s n := by
  have gen : ∀ k j, ∃ n, j + 1 ≤ n ∧ n ≤ j + k + 1 ∧ (loop P acc k (after P acc mix s j)).1 = after P acc mix s n := by
    intro k
    induction k with
    | zero => intro j; exact ⟨j + 1, le_rfl, by omega, rfl⟩
    | succ k ih =>
      intro j
      simp only [loop]
      split_ifs with h
      · exact ⟨j + 1, le_rfl, by omega, rfl⟩
      · obtain ⟨n, h1, h2, h3⟩ := ih (j + 1)
        exact ⟨n, by omega, by omega, h3⟩
  obtain ⟨n, h1, h2, h3⟩ := gen (N - 1) 0
  exact ⟨n, by omega, by omega, h3⟩

/-- **C55** (mixing). In the pass with number `k + 1` the mixing factor changes only if that number is divisible by five
and the newest deviation is larger than the oldest one that is kept; it then becomes six tenths of its value, but not less than
one hundredth. -/
theorem c55_mixing (P : Problem S) (acc mix : ℝ) (s : S) (k : ℕ) (hmix : 1 / 100 ≤ mix) :
    1 / 100 ≤ (after P acc mix s k).mix ∧
    ((after P acc mix s (k + 1)).mix = (after P acc mix s k).mix ∨
      (5 ∣ k + 1 ∧ (after P acc mix s (k + 1)).mix = max (6 / 10 * (after P acc mix s k).mix) (1 / 100) ∧
        ∃ old new, (after P acc mix s (k + 1)).devs.head? = some (some old) ∧
          (after P acc mix s (k + 1)).devs.getLast? = some (some new) ∧ old < new)) := by
  have lo : ∀ k, 1 / 100 ≤ (after P acc mix s k).mix := by
    intro k
    induction k with
    | zero => exact hmix
    | succ k ih =>
      show 1 / 100 ≤ adapt _ _ _
      simp only [adapt]
      split_ifs
      · exact le_max_right _ _
      · exact ih
  refine ⟨lo k, ?_⟩
  have h1 := (c55_memory P acc mix s k).1
  have e : (after P acc mix s (k + 1)).mix =
      adapt (k + 1) (after P acc mix s k).mix (after P acc mix s (k + 1)).devs := by
    show adapt (after P acc mix s k).iteration _ _ = _
    rw [h1]; rfl
  rw [e]
  generalize (after P acc mix s (k + 1)).devs = d
  simp only [adapt]
  split_ifs with h
  · right
    obtain ⟨h5, -, hf⟩ := h
    refine ⟨Nat.dvd_of_mod_eq_zero h5, rfl, ?_⟩
    rcases hd : d.head? with _ | _ | old <;> rcases hl : d.getLast? with _ | _ | new <;>
      simp [hd, hl, flt] at hf
    exact ⟨old, new, rfl, rfl, hf⟩
  · exact .inl rfl

/-- **C55** (mixing, converse). If the number of the pass is divisible by five, the newest deviation is larger than the oldest and
the factor is above one hundredth, it is reduced. -/
theorem c55_mixing_reduced (P : Problem S) (acc mix : ℝ) (s : S) (k : ℕ) (old new : ℝ) (h5 : 5 ∣ k + 1)
    (hm : 1 / 100 < (after P acc mix s k).mix)
    (ho : (after P acc mix s (k + 1)).devs.head? = some (some old))
    (hn : (after P acc mix s (k + 1)).devs.getLast? = some (some new)) (hlt : old < new) :
    (after P acc mix s (k + 1)).mix = max (6 / 10 * (after P acc mix s k).mix) (1 / 100) := by
  have h1 := (c55_memory P acc mix s k).1
  have e : (after P acc mix s (k + 1)).mix =
      adapt (k + 1) (after P acc mix s k).mix (after P acc mix s (k + 1)).devs := by
    show adapt (after P acc mix s k).iteration _ _ = _
    rw [h1]; rfl
  rw [e, adapt, if_pos ⟨Nat.mod_eq_zero_of_dvd h5, hm, by simp [ho, hn, flt, hlt]⟩]

/-- **C55** (saved layers). Pass number `i` is saved in layer `i mod 5`, with the state it produced. -/
theorem c55_layers (P : Problem S) (acc mix : ℝ) (s : S) (k : ℕ) :
    (after P acc mix s k).saved.map Saved.layer = (List.range (k + 1)).map (· % 5) ∧
      (after P acc mix s k).saved.map Saved.state = (List.range (k + 1)).map (input P acc mix s) := by
  induction k with
  | zero => exact ⟨rfl, rfl⟩
  | succ k ih =>
    have h1 := (c55_memory P acc mix s k).1
    rw [List.range_succ, List.map_append, List.map_append, ← ih.1, ← ih.2]
    constructor
    · have : (after P acc mix s (k + 1)).saved = (after P acc mix s k).saved ++
          [Saved.mk ((after P acc mix s k).iteration % 5) (input P acc mix s (k + 1))
            (pass P acc (after P acc mix s k)).2] := rfl
      rw [this, h1]; simp
    · have : (after P acc mix s (k + 1)).saved = (after P acc mix s k).saved ++
          [Saved.mk ((after P acc mix s k).iteration % 5) (input P acc mix s (k + 1))
            (pass P acc (after P acc mix s k)).2] := rfl
      rw [this]; simp

end Verif.Parquet
