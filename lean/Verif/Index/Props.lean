import Verif.Index.Lemmas2
import Mathlib.Algebra.BigOperators.Ring.List

/-!
# C01 – C03: flat positions and multi-indices
-/
namespace Verif.Index

/-- **C01** (size). The flat size is the number of elements. -/
theorem c01_flat_size (d : Nat) (ds : List Nat) :
    getFlatSize (d :: ds) = some (numElems (d :: ds)) := by
  simp [getFlatSize, foldl_mul_eq, numElems]

/-- **C01** (multi-index → flat → multi-index). For every shape of rank ≥ 2 and every in-range
multi-index, the flat position exists, lies strictly inside the flat size, is the row-major
position, and converting it back gives the multi-index. -/
theorem c01_mult_flat_mult (indx dims : List Nat) (hr : 2 ≤ dims.length) (h : InRange indx dims) :
    ∃ k, getFlatIndex indx dims = some k ∧ k < numElems dims ∧ k = rowMajor indx dims ∧
      getMultIndex k dims = some indx :=
  ⟨_, getFlatIndex_eq _ _ h.length_eq hr, rowMajor_lt h, rfl,
    getMultIndex_rowMajor h (by omega)⟩

/-- **C01** (flat → multi-index → flat). Every flat position inside the flat size has an in-range
multi-index, whose flat position is the original one. -/
theorem c01_flat_mult_flat (k : Nat) (dims : List Nat) (hr : 2 ≤ dims.length)
    (hk : k < numElems dims) :
    ∃ indx, getMultIndex k dims = some indx ∧ InRange indx dims ∧
      getFlatIndex indx dims = some k := by
  obtain ⟨is, h1, h2, h3⟩ := getMultIndex_spec k dims (by omega) hk
  exact ⟨is, h1, h2, by rw [getFlatIndex_eq _ _ h2.length_eq hr, h3]⟩

/-- **C01** (no aliasing). Two different in-range multi-indices have different flat positions. -/
theorem c01_injective (i j dims : List Nat) (hr : 2 ≤ dims.length) (hi : InRange i dims)
    (hj : InRange j dims) (h : getFlatIndex i dims = getFlatIndex j dims) : i = j := by
  obtain ⟨k, h1, -, -, h2⟩ := c01_mult_flat_mult i dims hr hi
  obtain ⟨k', h1', -, -, h2'⟩ := c01_mult_flat_mult j dims hr hj
  rw [h1, h1'] at h
  cases h
  rw [h2] at h2'
  exact Option.some.inj h2'

/-- **C01** (division by zero). The conversion of a flat position divides by zero exactly when
some extent other than the first is zero (rank ≥ 2). -/
theorem c01_division_by_zero (k d : Nat) (ds : List Nat) (hr : 1 ≤ ds.length) :
    getMultIndex k (d :: ds) = none ↔ 0 ∈ ds := by
  match ds, hr with
  | e :: ds, _ =>
    simp only [getMultIndex, foldl_mul_eq, Nat.one_mul]
    by_cases h : (e :: ds).prod = 0
    · simp only [h, if_true, true_iff]
      exact List.prod_eq_zero_iff.1 h
    · simp only [h, if_false, reduceCtorEq, false_iff]
      exact fun hc => h (List.prod_eq_zero_iff.2 hc)

example : InRange [1, 2, 0] [2, 3, 4] ∧ 2 ≤ [2, 3, 4].length ∧
    getFlatIndex [1, 2, 0] [2, 3, 4] = some 20 ∧ getMultIndex 20 [2, 3, 4] = some [1, 2, 0] := by
  refine ⟨?_, by decide, by decide, by decide⟩
  simp [InRange]

/-- **C02** is false of the code: for rank 1 the flat position of `(i)` is the extent, not `i`;
in fact it is wrong for every in-range index of every extent, and out of range. -/
theorem c02_rank_one_refuted :
    ¬ ∀ i n : Nat, i < n → getFlatIndex [i] [n] = some i := by
  intro h
  exact absurd (h 0 2 (by decide)) (by decide)

/-- **C02**, what the code does: the returned position never is in range. -/
theorem c02_rank_one_always_out_of_range (i n k : Nat) (h : getFlatIndex [i] [n] = some k) :
    ¬ k < n := by
  simp [getFlatIndex] at h
  omega

/-- **C02**, the direction that holds: rank-1 flat position → multi-index is the identity. -/
theorem c02_rank_one_mult_partial (k n : Nat) : getMultIndex k [n] = some [k] := rfl

/-- **C03** (same element). If `indx` is an in-range multi-index of the array `dims`, and `k` the
row-major position of the cyclically permuted multi-index in the cyclically permuted shape (axis
`iDim` last), then `rotateFlatIndex` maps `k` to the position of `indx` in the original array. -/
theorem c03_rotate_same_element (indx dims : List Nat) (iDim : Nat) (hd : iDim < dims.length)
    (h : InRange indx dims) :
    rotateFlatIndex (rowMajor (cyc indx (iDim + 1)) (cyc dims (iDim + 1))) dims iDim
      = some (rowMajor indx dims) :=
  rotateFlatIndex_cyc h iDim hd

/-- **C03** (bijection). `rotateFlatIndex` maps the flat range into itself, hits every position,
and is injective. -/
theorem c03_rotate_bijective (dims : List Nat) (iDim : Nat) (hd : iDim < dims.length) :
    (∀ k < numElems dims, ∃ m < numElems dims, rotateFlatIndex k dims iDim = some m) ∧
    (∀ m < numElems dims, ∃ k < numElems dims, rotateFlatIndex k dims iDim = some m) ∧
    (∀ k < numElems dims, ∀ k' < numElems dims,
      rotateFlatIndex k dims iDim = rotateFlatIndex k' dims iDim → k = k') := by
  have hcyc : ∀ l : List Nat, l.length = dims.length →
      cyc (cyc l (dims.length - (iDim+1))) (iDim + 1) = l := by
    intro l hl
    have := cyc_cyc l (dims.length - (iDim+1))
    rwa [hl, show dims.length - (dims.length - (iDim + 1)) = iDim + 1 by omega] at this
  have key : ∀ k < numElems dims, ∃ is, InRange is dims ∧
      k = rowMajor (cyc is (iDim+1)) (cyc dims (iDim+1)) := by
    intro k hk
    obtain ⟨js, -, hjs, e⟩ := getMultIndex_spec k (cyc dims (iDim+1)) (by rw [cyc_length]; omega)
      (by rw [prod_cyc]; exact hk)
    have hl : js.length = dims.length := by rw [hjs.length_eq, cyc_length]
    refine ⟨cyc js (dims.length - (iDim+1)), ?_, ?_⟩
    · have := inRange_cyc hjs (dims.length - (iDim+1))
      rwa [cyc_cyc dims (iDim+1)] at this
    · rw [hcyc js hl, e]
  refine ⟨?_, ?_, ?_⟩
  · intro k hk
    obtain ⟨is, hR, rfl⟩ := key k hk
    exact ⟨_, rowMajor_lt hR, rotateFlatIndex_cyc hR _ hd⟩
  · intro m hm
    obtain ⟨is, -, hR, rfl⟩ := getMultIndex_spec m dims (by omega) hm
    refine ⟨_, ?_, rotateFlatIndex_cyc hR _ hd⟩
    have := rowMajor_lt (inRange_cyc hR (iDim+1))
    rwa [prod_cyc] at this
  · intro k hk k' hk' h
    obtain ⟨is, hR, rfl⟩ := key k hk
    obtain ⟨is', hR', rfl⟩ := key k' hk'
    rw [rotateFlatIndex_cyc hR _ hd, rotateFlatIndex_cyc hR' _ hd] at h
    have e : rowMajor is dims = rowMajor is' dims := Option.some.inj h
    have := getMultIndex_rowMajor hR (by omega)
    rw [e, getMultIndex_rowMajor hR' (by omega)] at this
    rw [Option.some.inj this]

/-- **C03** (rotation moves axis `iDim` last). The extent of the last axis of the permuted shape is
the extent of axis `iDim`. -/
theorem c03_last_axis (dims : List Nat) (iDim : Nat) (hd : iDim < dims.length) :
    (cyc dims (iDim + 1)).getLast? = some dims[iDim] := by
  unfold cyc
  rw [List.getLast?_append_of_ne_nil]
  · rw [List.getLast?_eq_getElem?, List.getElem?_take_of_lt (by simp; omega)]
    simp [Nat.min_eq_left (show iDim + 1 ≤ dims.length by omega), hd]
  · intro h; rw [List.take_eq_nil_iff] at h; rcases h with h | h
    · omega
    · simp [h] at hd

/-- **C03** (cyclic shift). `permuteCyclic` shifts the entries right by `s`: entry `i` of the input
is entry `(i+s) mod rank` of the output. -/
theorem c03_permute_cyclic (arr : List Nat) (s : Nat) (hs : s < arr.length) :
    ∃ out, permuteCyclic arr s = some out ∧ out.length = arr.length ∧
      ∀ i < arr.length, out[(i + s) % arr.length]? = arr[i]? := by
  refine ⟨_, permuteCyclic_eq arr s hs, cyc_length _ _, ?_⟩
  intro i hi
  unfold cyc
  by_cases h : i + s < arr.length
  · rw [Nat.mod_eq_of_lt h, List.getElem?_append_right (by simp; omega),
      List.getElem?_take_of_lt (by simp; omega)]
    congr 1; simp; omega
  · rw [show (i + s) % arr.length = i + s - arr.length by
        rw [Nat.mod_eq_sub_mod (by omega), Nat.mod_eq_of_lt (by omega)],
      List.getElem?_append_left (by simp; omega), List.getElem?_drop]
    congr 1; omega

/-- **C03** (shifts outside the rank fail the assertion). -/
theorem c03_permute_cyclic_asserts (arr : List Nat) (s : Nat) :
    permuteCyclic arr s = none ↔ arr.length ≤ s := by
  unfold permuteCyclic; simp

/-- **C03** (inverse permutation). For every permutation of the axes, the computed inverse undoes it
on both sides. -/
theorem c03_inverse_permutation (perm : List Nat) (hb : ∀ k ∈ perm, k < perm.length)
    (hnd : perm.Nodup) :
    ∃ inv, getInversePermutation perm = some inv ∧ inv.length = perm.length ∧
      (∀ i (hi : i < perm.length), inv[perm[i]]? = some i) ∧
      (∀ j < perm.length, ∃ i, inv[j]? = some i ∧ perm[i]? = some j) := by
  obtain ⟨inv, h1, h2, h3⟩ := getInversePermutation_spec perm hb hnd
  refine ⟨inv, h1, h2, h3, ?_⟩
  intro j hj
  have hsurj : j ∈ perm := by
    have hsub : perm ⊆ List.range perm.length := fun x hx => by simpa using hb x hx
    have hp := (List.subperm_of_subset hnd hsub).perm_of_length_le (by simp)
    exact hp.symm.subset (by simpa using hj)
  obtain ⟨i, hi, rfl⟩ := List.getElem_of_mem hsurj
  exact ⟨i, h3 i hi, by simp [hi]⟩

example : rotateFlatIndex 7 [2, 3, 4] 0 = some 15 ∧ (1 : Nat) < [2, 3, 4].length ∧
    permuteCyclic [10, 11, 12, 13] 1 = some [13, 10, 11, 12] ∧
    getInversePermutation [3, 2, 0, 1] = some [2, 3, 1, 0] := by decide

end Verif.Index
