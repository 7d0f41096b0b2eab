import Verif.Nan.Spec
import Mathlib.Tactic.Linarith

namespace Verif.Nan

open Verif (Res)

theorem lt_none_left (y : Dbl) : lt none y = false := by cases y <;> rfl

theorem lt_none_right (y : Dbl) : lt y none = false := by cases y <;> rfl

theorem lt_some (a b : ℝ) : lt (some a) (some b) = true ↔ a < b := by simp [lt]

/-- The step of all the searches for a maximum. -/
theorem stdMax_none (y : Dbl) : stdMax none y = none := by simp [stdMax, lt_none_left]

theorem stdMax_none_right (y : Dbl) : stdMax y none = y := by simp [stdMax, lt_none_right]

theorem stdMax_some (a b : ℝ) : stdMax (some a) (some b) = some (max a b) := by
  unfold stdMax
  by_cases h : a < b
  · rw [if_pos ((lt_some a b).2 h), max_eq_right h.le]
  · rw [if_neg (fun h' => h ((lt_some a b).1 h')), max_eq_left (not_lt.1 h)]

theorem fold_none (l : List Dbl) : l.foldl stdMax none = none := by
  induction l with
  | nil => rfl
  | cons y l ih => rw [List.foldl_cons, stdMax_none, ih]

theorem fold_some (l : List Dbl) : ∀ a : ℝ, ∃ M : ℝ, l.foldl stdMax (some a) = some M ∧
    Largest (some a :: l) M := by
  induction l with
  | nil => exact fun a => ⟨a, rfl, List.mem_singleton.2 rfl, fun x hx => by simp at hx; exact hx.le⟩
  | cons y l ih =>
    intro a
    cases y with
    | none =>
      obtain ⟨M, h, hm, hl⟩ := ih a
      refine ⟨M, by rw [List.foldl_cons, stdMax_none_right, h], ?_, ?_⟩
      · simp only [List.mem_cons] at hm ⊢
        tauto
      · intro x hx
        apply hl
        simp only [List.mem_cons] at hx ⊢
        rcases hx with h | h | h
        · exact Or.inl h
        · cases h
        · exact Or.inr h
    | some b =>
      obtain ⟨M, h, hm, hl⟩ := ih (max a b)
      refine ⟨M, by rw [List.foldl_cons, stdMax_some, h], ?_, ?_⟩
      · simp only [List.mem_cons] at hm ⊢
        rcases hm with hm | hm
        · rcases max_choice a b with hc | hc <;> rw [hc] at hm
          · exact Or.inl hm
          · exact Or.inr (Or.inl hm)
        · exact Or.inr (Or.inr hm)
      · intro x hx
        have hab : max a b ≤ M := hl _ (List.mem_cons_self ..)
        simp only [List.mem_cons, Option.some.injEq] at hx
        rcases hx with rfl | rfl | hx
        · exact (le_max_left _ _).trans hab
        · exact (le_max_right _ _).trans hab
        · exact hl x (List.mem_cons_of_mem _ hx)

theorem arrayNorm_cons (x : Dbl) (l : List Dbl) : arrayNorm (x :: l) = .ok (l.foldl stdMax x) := rfl

theorem array_none (l : List Dbl) : arrayNorm (none :: l) = .ok none := by
  rw [arrayNorm_cons, fold_none]

theorem array_some (a : ℝ) (l : List Dbl) : ∃ M : ℝ, arrayNorm (some a :: l) = .ok (some M) ∧
    Largest (some a :: l) M := by
  obtain ⟨M, h, hM⟩ := fold_some l a
  exact ⟨M, by rw [arrayNorm_cons, h], hM⟩

/-- The norm of an array with elements is NaN exactly if its first element is. -/
theorem array_ok {l : List Dbl} (h : l ≠ []) : ∃ n : Dbl, arrayNorm l = .ok n ∧
    (n = none ↔ l.head? = some none) ∧ ∀ M : ℝ, n = some M → Largest l M := by
  cases l with
  | nil => exact absurd rfl h
  | cons x l =>
    cases x with
    | none => exact ⟨none, array_none l, by simp, fun M hM => by cases hM⟩
    | some a =>
      obtain ⟨M, hn, hM⟩ := array_some a l
      exact ⟨some M, hn, by simp, fun N hN => by cases hN; exact hM⟩

theorem array_clean {l : List Dbl} (h : l ≠ []) (hp : ¬ Poisoned l) : ∃ M : ℝ, arrayNorm l = .ok (some M) ∧
    Largest l M := by
  cases l with
  | nil => exact absurd rfl h
  | cons x l =>
    cases x with
    | none => exact absurd (List.mem_cons_self ..) hp
    | some a => exact array_some a l

theorem class_eq {a p t : List Dbl} {na np nt : Dbl} (ha : arrayNorm a = .ok na) (hp : arrayNorm p = .ok np)
    (ht : arrayNorm t = .ok nt) : classNorm a p t = .ok (stdMax (stdMax na np) nt) := by
  unfold classNorm
  rw [ha, hp, ht]
  rfl

theorem class_none {a p t : List Dbl} (ha : a.head? = some none) (hp : p ≠ []) (ht : t ≠ []) :
    classNorm a p t = .ok none := by
  have h : a ≠ [] := by rintro rfl; cases ha
  obtain ⟨na, h1, h2, -⟩ := array_ok h
  obtain ⟨np, h3, -, -⟩ := array_ok hp
  obtain ⟨nt, h4, -, -⟩ := array_ok ht
  rw [class_eq h1 h3 h4, h2.2 ha, stdMax_none, stdMax_none]

theorem class_ok {a p t : List Dbl} (ha : a ≠ []) (hp : p ≠ []) (ht : t ≠ []) :
    ∃ n, classNorm a p t = .ok n ∧ (n = none ↔ a.head? = some none) := by
  obtain ⟨na, h1, h2, -⟩ := array_ok ha
  obtain ⟨np, h3, -, -⟩ := array_ok hp
  obtain ⟨nt, h4, -, -⟩ := array_ok ht
  refine ⟨_, class_eq h1 h3 h4, ?_⟩
  rw [← h2]
  cases na with
  | none => simp [stdMax_none]
  | some x =>
    cases np <;> cases nt <;> simp [stdMax_none_right, stdMax_some]

/-- The norm of a class without NaN is its largest modulus over the three channels. -/
theorem class_clean {a p t : List Dbl} (ha : a ≠ []) (hp : p ≠ []) (ht : t ≠ []) (pa : ¬ Poisoned a)
    (pp : ¬ Poisoned p) (pt : ¬ Poisoned t) :
    ∃ M : ℝ, classNorm a p t = .ok (some M) ∧ Largest (a ++ p ++ t) M := by
  obtain ⟨A, h1, h2, h3⟩ := array_clean ha pa
  obtain ⟨P, h4, h5, h6⟩ := array_clean hp pp
  obtain ⟨T, h7, h8, h9⟩ := array_clean ht pt
  refine ⟨max (max A P) T, by rw [class_eq h1 h4 h7, stdMax_some, stdMax_some], ?_, ?_⟩
  · simp only [List.mem_append]
    rcases max_choice (max A P) T with h | h <;> rw [h]
    · rcases max_choice A P with h' | h' <;> rw [h']
      · exact Or.inl (Or.inl h2)
      · exact Or.inl (Or.inr h5)
    · exact Or.inr h8
  · intro x hx
    simp only [List.mem_append] at hx
    rcases hx with (hx | hx) | hx
    · exact (h3 x hx).trans ((le_max_left _ _).trans (le_max_left _ _))
    · exact (h6 x hx).trans ((le_max_right _ _).trans (le_max_left _ _))
    · exact (h9 x hx).trans (le_max_right _ _)

theorem vertex_ok {d : Data} (hd : d.Allocated) : ∃ n, vertexNorm d = .ok n ∧
    (n = none ↔ d.k1.a.head? = some none ∨ d.k2.a.head? = some none ∨ d.k3.a.head? = some none) := by
  obtain ⟨-, a1, p1, t1, a2, p2, t2, a3, p3, t3⟩ := hd
  obtain ⟨n1, h1, e1⟩ := class_ok a1 p1 t1
  obtain ⟨n2, h2, e2⟩ := class_ok a2 p2 t2
  obtain ⟨n3, h3, e3⟩ := class_ok a3 p3 t3
  refine ⟨add (add (add (some 0) n1) n2) n3, by unfold vertexNorm; rw [h1, h2, h3]; rfl, ?_⟩
  rw [← e1, ← e2, ← e3]
  cases n1 <;> cases n2 <;> cases n3 <;> simp [add]

theorem state_eq {d : Data} {s v : Dbl} (hs : seNorm d = .ok s) (hv : vertexNorm d = .ok v) :
    stateNorm d = .ok (stdMax s v) := by
  unfold stateNorm
  rw [hs, hv]
  rfl

theorem se_eq {d : Data} {s : Dbl} (h : arrayNorm d.sigma = .ok s) : seNorm d = .ok (stdMax s d.asymp) := by
  unfold seNorm
  rw [h]
  rfl

theorem add_none (x : Dbl) : add x none = none := by cases x <;> rfl

theorem total_none {l : List Dbl} (h : Poisoned l) : total l = none := by
  have stay : ∀ l : List Dbl, l.foldl add none = none := by
    intro l
    induction l with
    | nil => rfl
    | cons y l ih => rw [List.foldl_cons]; exact ih
  have key : ∀ (l : List Dbl), none ∈ l → ∀ x : Dbl, l.foldl add x = none := by
    intro l
    induction l with
    | nil => intro h; cases h
    | cons y l ih =>
      intro h x
      rw [List.foldl_cons]
      rcases List.mem_cons.1 h with h | h
      · subst h
        rw [add_none, stay]
      · exact ih h _
  exact key l h _

end Verif.Nan
