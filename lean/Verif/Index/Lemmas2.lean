import Verif.Index.Lemmas

namespace Verif.Index

/-- Writing `g i` to slot `f i` for all `i` in a list with `f` injective on it: every written slot
holds its value afterwards. -/
theorem foldl_set_get (f : Nat → Nat) (g : Nat → α) (l : List Nat) (init : List α)
    (hinj : l.Pairwise (fun a b => f a ≠ f b)) (hb : ∀ i ∈ l, f i < init.length) :
    ∀ i ∈ l, (l.foldl (fun r i => r.set (f i) (g i)) init)[f i]? = some (g i) := by
  have keep : ∀ (l : List Nat) (init : List α) (k : Nat), (∀ i ∈ l, f i ≠ k) →
      (l.foldl (fun r i => r.set (f i) (g i)) init)[k]? = init[k]? := by
    intro l
    induction l with
    | nil => intros; rfl
    | cons x xs ih =>
      intro init k h
      rw [List.foldl_cons, ih _ _ (fun i hi => h i (by simp [hi])), List.getElem?_set_ne (h x (by simp))]
  induction l generalizing init with
  | nil => simp
  | cons x xs ih =>
    intro i hi
    rw [List.pairwise_cons] at hinj
    rw [List.foldl_cons]
    rcases List.mem_cons.1 hi with rfl | hi
    · rw [keep _ _ _ (fun j hj => (hinj.1 j hj).symm)]
      rw [List.getElem?_set_self (hb i (by simp))]
    · exact ih _ hinj.2 (fun j hj => by simpa using hb j (by simp [hj])) i hi

theorem foldl_set_length (f : Nat → Nat) (g : Nat → α) (l : List Nat) (init : List α) :
    (l.foldl (fun r i => r.set (f i) (g i)) init).length = init.length := by
  induction l generalizing init with
  | nil => rfl
  | cons x xs ih => rw [List.foldl_cons, ih, List.length_set]

theorem permuteCyclic_eq (arr : List Nat) (s : Nat) (hs : s < arr.length) :
    permuteCyclic arr s = some (cyc arr (arr.length - s)) := by
  unfold permuteCyclic
  simp only [if_neg (show ¬ arr.length ≤ s by omega)]
  congr 1
  have hrw : (fun (res : List Nat) i =>
      if i < arr.length - s then res.set (i + s) (arr.getD i 0)
      else res.set (i + s - arr.length) (arr.getD i 0))
    = (fun res i => res.set (if i < arr.length - s then i + s else i + s - arr.length) (arr.getD i 0)) := by
    funext res i; split <;> rfl
  rw [hrw]
  have hget := foldl_set_get (fun i => if i < arr.length - s then i + s else i + s - arr.length)
    (fun i => arr.getD i 0) (List.range arr.length) (List.replicate arr.length 0)
    (by
      rw [List.pairwise_iff_getElem]
      intro i j hi hj hij
      simp only [List.length_range] at hi hj
      simp only [List.getElem_range]
      split <;> split <;> omega)
    (by
      intro i hi
      simp only [List.mem_range] at hi
      simp only [List.length_replicate]
      split <;> omega)
  have hlen := foldl_set_length (fun i => if i < arr.length - s then i + s else i + s - arr.length)
    (fun i => arr.getD i 0) (List.range arr.length) (List.replicate arr.length 0)
  apply List.ext_getElem?
  intro k
  by_cases hk : k < arr.length
  · unfold cyc
    by_cases hks : k < s
    · have h := hget (k + arr.length - s) (by simp; omega)
      simp only [if_neg (show ¬ (k + arr.length - s < arr.length - s) by omega)] at h
      rw [show k + arr.length - s + s - arr.length = k by omega] at h
      rw [h, List.getElem?_append_left (by simp; omega), List.getElem?_drop]
      rw [show arr.length - s + k = k + arr.length - s by omega]
      simp [List.getD, show k + arr.length - s < arr.length by omega]
    · have h := hget (k - s) (by simp; omega)
      simp only [if_pos (show k - s < arr.length - s by omega)] at h
      rw [show k - s + s = k by omega] at h
      rw [h, List.getElem?_append_right (by simp; omega), List.getElem?_take_of_lt (by simp; omega)]
      rw [show k - (List.drop (arr.length - s) arr).length = k - s by simp; omega]
      simp [List.getD, show k - s < arr.length by omega]
  · rw [List.getElem?_eq_none (by rw [hlen]; simp; omega),
      List.getElem?_eq_none (by rw [cyc_length]; omega)]

theorem getInversePermutation_spec (perm : List Nat) (hb : ∀ k ∈ perm, k < perm.length)
    (hnd : perm.Nodup) :
    ∃ inv, getInversePermutation perm = some inv ∧ inv.length = perm.length ∧
      ∀ i (hi : i < perm.length), inv[perm[i]]? = some i := by
  refine ⟨(List.range perm.length).foldl (fun res i => res.set (perm.getD i 0) i)
    (List.replicate perm.length 0), ?_, ?_, ?_⟩
  · unfold getInversePermutation
    rw [if_neg]
    simp only [List.any_eq_true, decide_eq_true_eq, not_exists, not_and, not_le]
    exact hb
  · rw [foldl_set_length]; simp
  · intro i hi
    have := foldl_set_get (fun i => perm.getD i 0) (fun i => i) (List.range perm.length)
      (List.replicate perm.length 0)
      (by
        rw [List.pairwise_iff_getElem]
        intro i j hi hj hij
        simp only [List.length_range] at hi hj
        simp only [List.getElem_range, List.getD, List.getElem?_eq_getElem hi, List.getElem?_eq_getElem hj,
          Option.getD_some]
        intro h
        have := (List.Nodup.getElem_inj_iff hnd).1 h
        omega)
      (by
        intro i hi
        simp only [List.mem_range] at hi
        simp only [List.length_replicate, List.getD, List.getElem?_eq_getElem hi, Option.getD_some]
        exact hb _ (List.getElem_mem hi))
      i (by simpa using hi)
    simpa [List.getD, List.getElem?_eq_getElem hi] using this

end Verif.Index
