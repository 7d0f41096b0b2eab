import Verif.Nan.Lemmas

/-
C171: a NaN in the data shows in their norm.
-/
namespace Verif.Nan

open Verif (Res)
open Verif.StepControl (Err Settings run Exit)

/-- C171, arrays.  The norm of an array is NaN exactly if the first element is; if the first element is a number,
the norm is the largest of the elements that are numbers, whatever else the array holds.  The norm of an array
without elements is undefined. -/
theorem c171_array_partial (l : List Dbl) :
    (l = [] ∧ arrayNorm l = .error .undefined) ∨ (l.head? = some none ∧ arrayNorm l = .ok none) ∨
      (∃ a M : ℝ, l.head? = some (some a) ∧ arrayNorm l = .ok (some M) ∧ Largest l M) := by
  cases l with
  | nil => exact Or.inl ⟨rfl, rfl⟩
  | cons x l =>
    right
    cases x with
    | none => exact Or.inl ⟨rfl, array_none l⟩
    | some a =>
      obtain ⟨M, h, hM⟩ := array_some a l
      exact Or.inr ⟨a, M, rfl, h, hM⟩

/-- C171, vectors.  The norm of a vector is never NaN: it is the largest of zero and the elements that are
numbers. -/
theorem c171_vector_partial (l : List Dbl) : ∃ M : ℝ, vecNorm l = some M ∧ Largest (some 0 :: l) M :=
  fold_some l 0

/-- C171 fails for vectors: every NaN is ignored, a vector of NaN has norm zero. -/
theorem c171_vector_refuted (n : Nat) : vecNorm (List.replicate n none) = some 0 := by
  obtain ⟨M, h, hm, -⟩ := fold_some (List.replicate n none) 0
  rw [vecNorm, h]
  rcases List.mem_cons.1 hm with h' | h'
  · exact h'
  · cases (List.mem_replicate.1 h').2

/-- C171 fails for arrays: the same elements in another order have another norm. -/
theorem c171_order_refuted : arrayNorm [none, some 1] = .ok none ∧ arrayNorm [some 1, none] = .ok (some 1) :=
  ⟨array_none _, rfl⟩

/-- C171, states without NaN.  If all the data are numbers, the norm is the larger of the norm of the self-energy
(with its value at infinity) and the sum of the largest moduli of the three classes. -/
theorem c171_state_partial (d : Data) (hd : d.Allocated) (hc : ¬ d.poisoned) :
    ∃ S A V₁ V₂ V₃ : ℝ, stateNorm d = .ok (some (max (max S A) (V₁ + V₂ + V₃))) ∧ Largest d.sigma S ∧
      d.asymp = some A ∧ Largest (d.k1.a ++ d.k1.p ++ d.k1.t) V₁ ∧ Largest (d.k2.a ++ d.k2.p ++ d.k2.t) V₂ ∧
      Largest (d.k3.a ++ d.k3.p ++ d.k3.t) V₃ := by
  unfold Data.poisoned at hc
  push Not at hc
  obtain ⟨c0, c1, c2, c3, c4, c5, c6, c7, c8, c9, c10⟩ := hc
  obtain ⟨s0, a1, p1, t1, a2, p2, t2, a3, p3, t3⟩ := hd
  obtain ⟨S, hS, hS'⟩ := array_clean s0 c0
  obtain ⟨A, hA⟩ := Option.ne_none_iff_exists'.1 c1
  obtain ⟨V₁, h1, h1'⟩ := class_clean a1 p1 t1 c2 c3 c4
  obtain ⟨V₂, h2, h2'⟩ := class_clean a2 p2 t2 c5 c6 c7
  obtain ⟨V₃, h3, h3'⟩ := class_clean a3 p3 t3 c8 c9 c10
  refine ⟨S, A, V₁, V₂, V₃, ?_, hS', hA, h1', h2', h3'⟩
  have hv : vertexNorm d = .ok (some (V₁ + V₂ + V₃)) := by
    unfold vertexNorm
    rw [h1, h2, h3]
    show Except.ok (some (0 + V₁ + V₂ + V₃)) = _
    rw [zero_add]
  rw [state_eq (se_eq hS) hv, hA, stdMax_some, stdMax_some]

/-- C171, what is seen.  The norm of a state is NaN exactly if the first value of the self-energy is NaN. -/
theorem c171_seen_partial (d : Data) (hd : d.Allocated) :
    stateNorm d = .ok none ↔ d.sigma.head? = some none := by
  obtain ⟨s, h1, h2, -⟩ := array_ok hd.1
  obtain ⟨v, h3, -⟩ := vertex_ok hd
  rw [state_eq (se_eq h1) h3, Except.ok.injEq, ← h2]
  cases s with
  | none => simp [stdMax_none]
  | some x => cases d.asymp <;> cases v <;> simp [stdMax_none_right, stdMax_some]

/-- C171 fails for states: if the first value of one of the classes of the `a` channel is NaN, the whole vertex
drops out of the norm, which is the norm of the self-energy, a number unless the first value of the self-energy
is NaN. -/
theorem c171_vertex_refuted (d : Data) (hd : d.Allocated)
    (hv : d.k1.a.head? = some none ∨ d.k2.a.head? = some none ∨ d.k3.a.head? = some none) :
    stateNorm d = seNorm d ∧ (d.sigma.head? ≠ some none → ∃ M : ℝ, stateNorm d = .ok (some M)) := by
  obtain ⟨v, h3, h4⟩ := vertex_ok hd
  obtain ⟨s, h1, h2, -⟩ := array_ok hd.1
  have hs := se_eq h1
  have he : stateNorm d = seNorm d := by rw [state_eq hs h3, h4.2 hv, stdMax_none_right, hs]
  refine ⟨he, fun h => ?_⟩
  rw [he, hs]
  cases s with
  | none => exact absurd (h2.1 rfl) h
  | some x =>
    cases d.asymp with
    | none => exact ⟨x, by rw [stdMax_none_right]⟩
    | some y => exact ⟨max x y, by rw [stdMax_some]⟩

/-- The data of a state whose vertex is NaN in every element. -/
def lost (sigma : List Dbl) (asymp : Dbl) (n : Nat) : Data :=
  let c : Class := ⟨List.replicate n none, List.replicate n none, List.replicate n none⟩
  ⟨sigma, asymp, c, c, c⟩

/-- C171, consequence for the flow.  A step whose result has a vertex of NaN only, of any size, is accepted at the
first attempt if the self-energy is accurate: the estimate of the error is that of the self-energy alone. -/
theorem c171_step_refuted (n : Nat) (hn : 0 < n) (e s : ℝ) (he : 0 ≤ e) (hs : e ≤ s) (h0 : 0 < s)
    (c : Settings) (t : ℝ) (fuel : Nat) :
    maxRelErr (lost [some e] (some 0) n) (lost [some s] (some 0) n) = .ok (.num (e / s)) ∧
      ∀ err : Nat → Option ℝ → Err,
        maxRelErr (lost [some e] (some 0) n) (lost [some s] (some 0) n) = .ok (err 0 (some t)) →
        run c err (fuel + 1) t = some (.accept (some t) (.num (e / s)) false 1) := by
  have hall : ∀ x : ℝ, (lost [some x] (some 0) n).Allocated := by
    intro x
    have : List.replicate n (none : Dbl) ≠ [] := by
      intro h
      have := congrArg List.length h
      simp at this
      omega
    exact ⟨by simp [lost], this, this, this, this, this, this, this, this, this⟩
  have hhead : (List.replicate n (none : Dbl)).head? = some none := by
    obtain ⟨m, rfl⟩ : ∃ m, n = m + 1 := ⟨n - 1, by omega⟩
    rfl
  have hnorm : ∀ x : ℝ, 0 ≤ x → stateNorm (lost [some x] (some 0) n) = .ok (some x) := by
    intro x hx
    rw [(c171_vertex_refuted _ (hall x) (Or.inl hhead)).1, se_eq (d := lost [some x] (some 0) n)
      (s := some x) rfl]
    show Except.ok (stdMax (some x) (some 0)) = _
    rw [stdMax_some, max_eq_left hx]
  have hrel : maxRelErr (lost [some e] (some 0) n) (lost [some s] (some 0) n) = .ok (.num (e / s)) := by
    unfold maxRelErr
    rw [hnorm e he, hnorm s h0.le]
    show Except.ok (div (some e) (some s)) = _
    simp [div, h0.ne']
  refine ⟨hrel, fun err h => ?_⟩
  rw [hrel] at h
  have h := (Except.ok.inj h).symm
  show Verif.StepControl.loop c err 0 (fuel + 1) 0 (some t) false = _
  have hle : e / s ≤ 1 := (div_le_one h0).2 hs
  simp only [Verif.StepControl.loop, h, Verif.StepControl.Err.atMostOne, hle, true_or, if_true]

/-- C171, consequence for the parquet solver.  If any element of the vertex is NaN, the norms of the solver are
NaN, so is the relative difference, and the test for convergence looks at the self-energy only. -/
theorem c171_parquet_refuted (root : ℝ → ℝ) (accuracy : ℝ) (c : Class)
    (h : Poisoned c.a ∨ Poisoned c.p ∨ Poisoned c.t) (x : Dbl) (se : Err) :
    powerNorm root c = none ∧ div (powerNorm root c) x = .nan ∧ div x (powerNorm root c) = .nan ∧
      (converged accuracy (div (powerNorm root c) x) se ↔ ¬ se.exceeds accuracy) := by
  have hn : powerNorm root c = none := by
    unfold powerNorm
    rcases h with h | h | h
    · rw [total_none h]; rfl
    · rw [total_none h, add_none]; rfl
    · rw [total_none h, add_none]; rfl
  have h1 : div (powerNorm root c) x = .nan := by rw [hn]; rfl
  have h2 : div x (powerNorm root c) = .nan := by rw [hn]; cases x <;> rfl
  refine ⟨hn, h1, h2, ?_⟩
  rw [h1, converged]
  simp [Err.exceeds]

/-! ### Non-vacuity -/

/-- A state with numbers only meets the hypotheses of `c171_state_partial`, and its norm is 4. -/
example : ∃ d : Data, d.Allocated ∧ ¬ d.poisoned ∧ stateNorm d = .ok (some 4) := by
  refine ⟨⟨[some 1, some 2], some 3, ⟨[some 1], [some 2], [some 3]⟩, ⟨[some 1], [some 1], [some 1]⟩,
    ⟨[some 0], [some 0], [some 0]⟩⟩, by simp [Data.Allocated], by simp [Data.poisoned, Poisoned], ?_⟩
  simp [stateNorm, vertexNorm, seNorm, classNorm, arrayNorm, stdMax, lt, add, bind, Except.bind, pure, Except.pure]
  norm_num

/-- A NaN in the last element of the self-energy is not seen. -/
example : stateNorm ⟨[some 1, none], some 3, ⟨[some 1], [some 2], [some 3]⟩, ⟨[some 1], [none], [some 1]⟩,
    ⟨[some 0], [some 0], [none]⟩⟩ = .ok (some 4) := by
  simp [stateNorm, vertexNorm, seNorm, classNorm, arrayNorm, stdMax, lt, add, bind, Except.bind, pure, Except.pure]
  norm_num

end Verif.Nan
