import Verif.Collapse.Model
import Verif.Index.Lemmas2
import Verif.Util.Lists
import Mathlib.Data.List.GetD

namespace Verif.Collapse
open Verif Verif.Index

/-- The axes that are not kept. -/
def others (iDims : List Nat) (n : Nat) : List Nat := (List.range n).filter (fun i => decide (i ∉ iDims))

theorem perm_axes (rank : Nat) (iDims : List Nat) (hb : ∀ i ∈ iDims, i < rank) (hnd : iDims.Nodup) :
    (iDims ++ (others iDims rank).reverse).Perm (List.range rank) := by
  rw [List.perm_ext_iff_of_nodup]
  · intro a
    simp only [List.mem_append, List.mem_reverse, others, List.mem_filter, List.mem_range, decide_eq_true_eq]
    constructor
    · rintro (h | h)
      · exact hb a h
      · exact h.1
    · intro h
      by_cases ha : a ∈ iDims
      · exact Or.inl ha
      · exact Or.inr ⟨h, ha⟩
  · rw [List.nodup_append]
    refine ⟨hnd, List.nodup_reverse.2 (List.nodup_range.filter _), ?_⟩
    intro a ha b hb' hab
    subst hab
    simp [others] at hb'
    exact hb'.2 ha
  · exact List.nodup_range

theorem others_succ (iDims : List Nat) (n : Nat) :
    others iDims (n + 1) = if n ∈ iDims then others iDims n else others iDims n ++ [n] := by
  unfold others
  rw [List.range_succ, List.filter_append]
  by_cases h : n ∈ iDims <;> simp [h]

theorem lastIdx_spec (iDims : List Nat) (i : Nat) (m : Nat) (hm : m ≤ iDims.length) :
    match (List.range m).foldl (fun acc j => if iDims[j]? = some i then some j else acc) none with
    | some j => j < m ∧ iDims[j]? = some i
    | none => ∀ j < m, iDims[j]? ≠ some i := by
  induction m with
  | zero => simp
  | succ m ih =>
    have ih := ih (by omega)
    rw [List.range_succ, List.foldl_append, List.foldl_cons, List.foldl_nil]
    by_cases h : iDims[m]? = some i
    · rw [if_pos h]; exact ⟨by omega, h⟩
    · rw [if_neg h]
      split <;> rename_i heq <;> rw [heq] at ih
      · exact ⟨by omega, ih.2⟩
      · intro j hj
        rcases Nat.lt_succ_iff_lt_or_eq.1 hj with h' | h'
        · exact ih j h'
        · rw [h']; exact h

theorem permFold_spec (rank : Nat) (iDims : List Nat) (hb : ∀ i ∈ iDims, i < rank) (hnd : iDims.Nodup)
    (n : Nat) (hn : n ≤ rank) :
    ∃ arr, (List.range n).foldlM (permStep rank iDims) (List.replicate rank none, 0)
        = .ok (arr, (others iDims n).length) ∧ arr.length = rank ∧
      (∀ t (ht : t < iDims.length), arr[t]? = some (if iDims[t] < n then some iDims[t] else none)) ∧
      (∀ k < (others iDims n).length, arr[rank - 1 - k]? = some ((others iDims n)[k]?)) := by
  have hlen : iDims.length + (others iDims rank).length = rank := by
    have := (perm_axes rank iDims hb hnd).length_eq
    simpa using this
  have hmono : ∀ n ≤ rank, (others iDims n).length ≤ (others iDims rank).length := by
    intro n hn
    apply List.Sublist.length_le
    unfold others
    apply List.Sublist.filter
    exact List.range_sublist.2 hn
  induction n with
  | zero =>
    refine ⟨_, rfl, by simp, ?_, ?_⟩
    · intro t ht
      have : t < rank := by omega
      simp [this]
    · simp [others]
  | succ n ih =>
    obtain ⟨arr, h1, h2, h3, h4⟩ := ih (by omega)
    rw [List.range_succ, List.foldlM_append, h1]
    have hl := lastIdx_spec iDims n iDims.length (le_refl _)
    have hm1 := hmono (n + 1) hn
    rw [others_succ] at hm1 ⊢
    by_cases hmem : n ∈ iDims
    · rw [if_pos hmem] at hm1 ⊢
      split at hl <;> rename_i heq
      · rename_i j
        refine ⟨arr.set j (some n), ?_, by simpa using h2, ?_, ?_⟩
        · have : j < rank := by omega
          simp [bind, Except.bind, permStep, heq, this, pure, Except.pure]
        · intro t ht
          obtain ⟨hj, hjn⟩ := hl
          have hjn' : iDims[j] = n := by
            rw [List.getElem?_eq_getElem hj] at hjn; exact Option.some.inj hjn
          by_cases htj : t = j
          · subst htj
            rw [List.getElem?_set_self (by omega), hjn', if_pos (by omega)]
          · rw [List.getElem?_set_ne (fun h => htj h.symm), h3 t ht]
            have hne : iDims[t] ≠ n := by
              intro h
              apply htj
              exact (List.Nodup.getElem_inj_iff hnd).1 (h.trans hjn'.symm)
            by_cases hlt : iDims[t] < n
            · rw [if_pos hlt, if_pos (by omega)]
            · rw [if_neg hlt, if_neg (by omega)]
        · intro k hk
          rw [List.getElem?_set_ne (by omega)]
          exact h4 k hk
      · obtain ⟨t, ht, htn⟩ := List.getElem_of_mem hmem
        exact absurd (by rw [List.getElem?_eq_getElem ht, htn]) (hl t ht)
    · rw [if_neg hmem] at hm1 ⊢
      split at hl <;> rename_i heq
      · exfalso
        obtain ⟨hj, hjn⟩ := hl
        exact hmem (List.mem_of_getElem? hjn)
      · simp only [List.length_append, List.length_cons, List.length_nil] at hm1
        refine ⟨arr.set (rank - (others iDims n).length - 1) (some n), ?_, by simpa using h2, ?_, ?_⟩
        · have : (others iDims n).length + 1 ≤ rank := by omega
          simp [bind, Except.bind, permStep, heq, this, pure, Except.pure]
        · intro t ht
          rw [List.getElem?_set_ne (by omega), h3 t ht]
          have hne : iDims[t] ≠ n := fun h => hmem (h ▸ List.getElem_mem ht)
          by_cases hlt : iDims[t] < n
          · rw [if_pos hlt, if_pos (by omega)]
          · rw [if_neg hlt, if_neg (by omega)]
        · intro k hk
          simp only [List.length_append, List.length_cons, List.length_nil] at hk
          by_cases hkl : k = (others iDims n).length
          · subst hkl
            rw [show rank - 1 - (others iDims n).length = rank - (others iDims n).length - 1 by omega,
              List.getElem?_set_self (by omega)]
            simp
          · rw [List.getElem?_set_ne (by omega), h4 k (by omega), List.getElem?_append_left (by omega)]

theorem permRot_eq (rank : Nat) (iDims : List Nat) (hb : ∀ i ∈ iDims, i < rank) (hnd : iDims.Nodup) :
    permRot rank iDims = .ok (iDims ++ (others iDims rank).reverse) := by
  have hlen : iDims.length + (others iDims rank).length = rank := by
    have := (perm_axes rank iDims hb hnd).length_eq
    simpa using this
  obtain ⟨arr, h1, h2, h3, h4⟩ := permFold_spec rank iDims hb hnd rank (le_refl _)
  have harr : arr = (iDims ++ (others iDims rank).reverse).map some := by
    apply List.ext_getElem?
    intro p
    by_cases hp : p < iDims.length
    · rw [h3 p hp, if_pos (hb _ (List.getElem_mem hp)), List.getElem?_map, List.getElem?_append_left hp,
        List.getElem?_eq_getElem hp]
      rfl
    · by_cases hp2 : p < rank
      · have := h4 (rank - 1 - p) (by omega)
        rw [show rank - 1 - (rank - 1 - p) = p by omega] at this
        rw [this, List.getElem?_map, List.getElem?_append_right (by omega),
          List.getElem?_reverse (by omega), List.getElem?_eq_getElem (by omega),
          List.getElem?_eq_getElem (by omega)]
        simp only [Option.map_some]
        congr 2
        congr 1
        omega
      · rw [List.getElem?_eq_none (by omega), List.getElem?_eq_none (by simp; omega)]
  unfold permRot
  rw [h1]
  simp only [bind, Except.bind]
  rw [harr]
  generalize (iDims ++ (others iDims rank).reverse) = l
  clear harr h1 h2 h3 h4
  induction l with
  | nil => rfl
  | cons x xs ih => rw [List.map_cons, List.mapM_cons, ih]; rfl

/-- The rotated flat index addresses the element with the permuted multi-index, for every permutation of the
axes. -/
theorem rotateFlatIndexPerm_perm {m dims : List Nat} (h : InRange m dims) (h1 : 1 ≤ dims.length)
    (P inv : List Nat) (hP : P.Perm (List.range dims.length))
    (hinv : getInversePermutation P = some inv) :
    rotateFlatIndexPerm (rowMajor (P.map (m.getD · 0)) (P.map (dims.getD · 0))) (P.map (dims.getD · 0)) inv
      = some (rowMajor m dims) := by
  have hlen := h.length_eq
  have hPl : P.length = dims.length := by simpa using hP.length_eq
  have hPb : ∀ k ∈ P, k < P.length := fun k hk => by
    rw [hPl]; simpa using hP.mem_iff.1 hk
  have hPn : P.Nodup := hP.nodup_iff.2 List.nodup_range
  obtain ⟨inv', e1, e2, e3⟩ := getInversePermutation_spec P hPb hPn
  rw [hinv] at e1; cases e1
  have hR : InRange (P.map (m.getD · 0)) (P.map (dims.getD · 0)) := by
    unfold InRange
    rw [List.forall₂_map_left_iff, List.forall₂_map_right_iff, List.forall₂_same]
    intro k hk
    have hk' : k < dims.length := by rw [← hPl]; exact hPb k hk
    have := (List.forall₂_iff_get.1 h).2 k (by omega) hk'
    simpa [List.getD, List.getElem?_eq_getElem hk', List.getElem?_eq_getElem (show k < m.length by omega)]
      using this
  have hm := getMultIndex_rowMajor hR (by simp; omega)
  have key : ∀ l : List Nat, l.length = dims.length →
      inv.mapM ((P.map (l.getD · 0))[·]?) = some l := by
    intro l hl
    apply mapM_getElem?_eq
    · omega
    · intro j hj
      have hjm : j ∈ P := hP.mem_iff.2 (by simp; omega)
      obtain ⟨i, hi, rfl⟩ := List.getElem_of_mem hjm
      have := e3 i hi
      rw [List.getElem?_eq_getElem hj] at this
      rw [Option.some.inj this]
      have hb : P[i] < l.length := by rw [hl, ← hPl]; exact hPb _ (List.getElem_mem _)
      simp [hi, hb]
  simp only [rotateFlatIndexPerm, hm, getFlatIndexPerm, key m hlen, key dims rfl, Option.bind_eq_bind,
    Option.bind_some]
  match m, dims, h, hlen with
  | i :: is, d :: ds, _, hlen =>
    simp only [List.length_cons, Nat.add_right_cancel_iff] at hlen
    simp [flatLoop_eq _ _ _ hlen, rowMajor]
  | [], [], _, _ => simp at h1

theorem rowMajor_append {a c da dc : List Nat} (h : a.length = da.length) (h2 : c.length = dc.length) :
    rowMajor (a ++ c) (da ++ dc) = rowMajor a da * dc.prod + rowMajor c dc := by
  induction a generalizing da with
  | nil => cases da <;> simp_all [rowMajor]
  | cons x xs ih =>
    cases da with
    | nil => simp at h
    | cons d ds =>
      simp only [List.length_cons, Nat.add_right_cancel_iff] at h
      simp only [List.cons_append, rowMajor, ih h, List.prod_append]
      ring

theorem inRange_append {a c da dc : List Nat} (ha : InRange a da) (hc : InRange c dc) :
    InRange (a ++ c) (da ++ dc) := List.rel_append ha hc

theorem inRange_iff {m dims : List Nat} : InRange m dims ↔ m.length = dims.length ∧
    ∀ i, i < dims.length → m.getD i 0 < dims.getD i 0 := by
  unfold InRange
  rw [List.forall₂_iff_get]
  constructor
  · rintro ⟨h1, h2⟩
    refine ⟨h1, fun i hi => ?_⟩
    have := h2 i (by omega) hi
    simpa [List.getD, List.getElem?_eq_getElem hi, List.getElem?_eq_getElem (show i < m.length by omega)] using this
  · rintro ⟨h1, h2⟩
    refine ⟨h1, fun i hi hi' => ?_⟩
    have := h2 i hi'
    simpa [List.getD, List.getElem?_eq_getElem hi, List.getElem?_eq_getElem hi'] using this

end Verif.Collapse
