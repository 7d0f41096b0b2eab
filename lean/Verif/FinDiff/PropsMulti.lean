import Verif.FinDiff.LemmasArr
import Verif.FinDiff.Props
import Mathlib.Data.List.GetD

/-! C43: derivatives of multi-dimensional data act line by line. -/
namespace Verif.FinDiff
open Verif Verif.Index Verif.MultiArray

section
variable {K W : Type} [Field K] [LinearOrder K] [IsStrictOrderedRing K] [AddCommGroup W] [Module K W]

omit [IsStrictOrderedRing K] in
/-- **C43** (vectors).  For every shape, every axis with at least five points and every order of the
parallel iterations, the result at a multi-index is the one-dimensional derivative of the data on the
line through it (if none of these one-dimensional derivatives fails an assertion). -/
theorem c43_vector_rows (eps : K) (data : List W) (xs : List K) (dims : List Nat) (iDim : Nat)
    (hd : iDim < dims.length) (hdata : data.length = dims.prod) (hxs : xs.length = dims[iDim])
    (hmin : 5 ≤ dims[iDim]) (order : List Nat) (horder : order.Perm (List.range dims.prod)) (g : List Nat → W)
    (hg : ∀ indx, InRange indx dims →
      lineV2 eps xs.length (rd xs) (rd (lineOf data dims iDim indx)) (indx.getD iDim 0) = .ok (g indx)) :
    ∃ out, partialDerivVec (lineV2 eps xs.length) 5 data xs dims iDim order = .ok out ∧
      out.length = dims.prod ∧ ∀ indx, InRange indx dims → out[rowMajor indx dims]? = some (g indx) := by
  apply partialDerivVec_lines (lineV2 eps xs.length) 5 data xs dims iDim hd hdata hxs hmin _ order horder g hg
  intro f f' jt hjt hff
  unfold lineV2
  split_ifs with c0 c1 c2 c3
  all_goals
    apply helper_congr <;> first
      | decide
      | (intro j _ _; rfl)
      | (intro j _ _; exact rdI_congr dims[iDim] f f' hff jt j (by omega) (by omega))

/-- **C43** together with C42: if the data on every line along the axis are a polynomial of degree at
most four in the grid points, and the points are separated as in `c42_separated_partial`, the result at
every multi-index is the derivative of the polynomial of its own line. -/
theorem c43_vector_polynomial (eps : K) (data : List W) (xs : List K) (hmono : xs.Pairwise (· < ·))
    (h : K) (h0 : 0 < h) (h1 : h ≤ 1) (heps : eps < h ^ 4)
    (hsep : ∀ i (hi : i + 1 < xs.length), h ≤ xs[i+1] - xs[i]) (dims : List Nat) (iDim : Nat)
    (hd : iDim < dims.length) (hdata : data.length = dims.prod) (hxs : xs.length = dims[iDim])
    (hmin : 5 ≤ dims[iDim]) (order : List Nat) (horder : order.Perm (List.range dims.prod))
    (c : List Nat → Nat → W)
    (hpoly : ∀ indx, InRange indx dims → lineOf data dims iDim indx = xs.map (polyVal 5 (c indx))) :
    ∃ out, partialDerivVec (lineV2 eps xs.length) 5 data xs dims iDim order = .ok out ∧
      ∀ indx, InRange indx dims →
        out[rowMajor indx dims]? = some (polyDeriv 5 (c indx) (xs.getD (indx.getD iDim 0) 0)) := by
  obtain ⟨out, a, -, b⟩ := c43_vector_rows eps data xs dims iDim hd hdata hxs hmin order horder
    (fun indx => polyDeriv 5 (c indx) (xs.getD (indx.getD iDim 0) 0)) (fun indx hi => by
      have hj : indx.getD iDim 0 < xs.length := by rw [hxs]; exact inRange_get hi iDim hd
      rw [hpoly indx hi, c42_separated_partial eps xs hmono (by omega) h h0 h1 heps hsep (c indx) _ hj]
      rw [List.getD_eq_getElem _ _ hj])
  exact ⟨out, a, b⟩

end

section
variable {K W : Type} [Field K] [AddCommGroup W] [Module K W]

/-- **C43** (arrays, what holds).  At points that are interior on their line, for every shape and axis,
the result is the central difference of the data on that line; and if the axis is not preceded by axes
with more than one point, this holds at the two ends of the line as well (one-sided differences).
Missing: the ends of the lines of all other arrays, see `c43_array_rows_refuted`. -/
theorem c43_array_rows_partial (data : MArr W) (hw : data.WF) (iDim : Nat) (hd : iDim < data.len.length)
    (hn : 2 < data.len[iDim]) (indx : List Nat) (hi : InRange indx data.len)
    (hin : (0 < indx.getD iDim 0 ∧ indx.getD iDim 0 < data.len[iDim] - 1) ∨ (data.len.take iDim).prod = 1) :
    ∃ out, partialDerivArr K data iDim = .ok out ∧ out.len = data.len ∧
      out.at indx = .ok (threePoint K (lineOf data.elems data.len iDim indx) (indx.getD iDim 0)) :=
  colVal_line data hw iDim hd hn indx hi hin

/-- **C43** (arrays, exactness on a line): the three-point differences differentiate quadratic data. -/
theorem c43_three_point_exact [CharZero K] (n : Nat) (hn : 3 ≤ n) (c : Nat → W) (k : Nat) (hk : k < n) :
    threePoint K ((List.range n).map fun j : Nat => polyVal 3 c (j : K)) k = polyDeriv 3 c (k : K) := by
  have h2 : (2 : K) ≠ 0 := two_ne_zero
  have hg : ∀ j < n, ((List.range n).map fun j : Nat => polyVal 3 c (j : K)).getD j 0 = polyVal 3 c (j : K) := by
    intro j hj; simp [hj]
  unfold threePoint
  simp only [List.length_map, List.length_range]
  split_ifs with h0 h1
  · subst h0
    rw [hg 0 (by omega), hg 1 (by omega), hg 2 (by omega)]
    simp only [polyVal, polyDeriv, Finset.sum_range_succ, Finset.sum_range_zero]
    push_cast
    match_scalars <;> field_simp <;> ring
  · obtain ⟨m, rfl⟩ : ∃ m, k = m + 2 := ⟨k - 2, by omega⟩
    rw [show m + 2 - 2 = m by omega, show m + 2 - 1 = m + 1 by omega, hg m (by omega), hg (m+1) (by omega), hg (m+2) hk]
    simp only [polyVal, polyDeriv, Finset.sum_range_succ, Finset.sum_range_zero]
    push_cast
    match_scalars <;> field_simp <;> ring
  · obtain ⟨m, rfl⟩ : ∃ m, k = m + 1 := ⟨k - 1, by omega⟩
    rw [show m + 1 - 1 = m by omega, hg m (by omega), hg (m+1+1) (by omega)]
    simp only [polyVal, polyDeriv, Finset.sum_range_succ, Finset.sum_range_zero]
    push_cast
    match_scalars <;> field_simp <;> ring

end

/-- **C43** is false of the array version: in a `2 × 3` array with rows `0, 1, 2` and `10, 11, 12` (slope
one everywhere), the derivative along the rows at the end of the first row mixes in the second row and
comes out as `9/2`. -/
theorem c43_array_rows_refuted :
    ∃ (data : MArr ℚ) (indx : List Nat), data.WF ∧ InRange indx data.len ∧ data.len = [2, 3] ∧
      lineOf data.elems data.len 1 indx = [0, 1, 2] ∧
      ∃ out, partialDerivArr ℚ data 1 = .ok out ∧ out.at indx = .ok (9/2) ∧
        threePoint ℚ (lineOf data.elems data.len 1 indx) (indx.getD 1 0) = 1 := by
  refine ⟨⟨[2, 3], [3, 1], [0, 1, 2, 10, 11, 12]⟩, [0, 2], ⟨by simp, by simp, by simp [cumulLength]⟩,
    ?_, rfl, ?_, ?_⟩
  · exact List.Forall₂.cons (by omega) (List.Forall₂.cons (by omega) List.Forall₂.nil)
  · decide +kernel
  · refine ⟨⟨[2, 3], [3, 1], [1, 1, 9/2, 9/2, 1, 1]⟩, ?_, ?_, ?_⟩
    · have := partialDerivArr_eq (K := ℚ) (⟨[2, 3], [3, 1], [0, 1, 2, 10, 11, 12]⟩ : MArr ℚ)
        ⟨by simp, by simp, by simp [cumulLength]⟩ 1 (by simp) (by simp) (by simp)
      rw [this]
      congr 2
      decide +kernel
    · decide +kernel
    · decide +kernel

/-! Non-vacuity. -/
example : ∃ (data : MArr ℚ), data.WF ∧ 2 < data.len.getD 1 0 ∧ InRange [1, 1, 0] data.len :=
  ⟨MArr.make [2, 3, 2] 0, make_wf _ _ (by simp), by decide,
    List.Forall₂.cons (by omega) (List.Forall₂.cons (by omega) (List.Forall₂.cons (by omega) List.Forall₂.nil))⟩

/-- A `1 × 5`, a `5 × 2` or any other array of constant data meets the hypotheses of the vector
theorems, with a grid of spacing one. -/
example : ∃ out, partialDerivVec (lineV2 (1/10^15) 5) 5 (List.replicate 10 (3 : ℚ)) [0, 1, 2, 3, (4:ℚ)] [5, 2] 0
    [9, 8, 7, 6, 5, 4, 3, 2, 1, 0] = .ok out ∧
    ∀ indx, InRange indx [5, 2] → out[rowMajor indx [5, 2]]? = some (0 : ℚ) := by
  obtain ⟨out, a, b⟩ := c43_vector_polynomial (1/10^15) (List.replicate 10 (3 : ℚ)) [0, 1, 2, 3, (4:ℚ)]
    (by decide +kernel) 1 (by norm_num) le_rfl (by norm_num) (by
      intro i hi
      have : i < 4 := by simp at hi; omega
      interval_cases i <;> norm_num) [5, 2] 0 (by simp) (by simp) (by simp) (by simp)
    [9, 8, 7, 6, 5, 4, 3, 2, 1, 0] (by decide) (fun _ m => if m = 0 then 3 else 0) (by
      intro indx hi
      have hlt : ∀ j, j < 5 → rowMajor (indx.set 0 j) [5, 2] < 10 := fun j hj =>
        rowMajor_lt (inRange_set hi 0 (by simp) j (by simpa using hj))
      have e : ∀ j, j < 5 → (List.replicate 10 (3 : ℚ)).getD (rowMajor (indx.set 0 j) [5, 2]) 0 = 3 := by
        intro j hj
        rw [List.getD_eq_getElem _ _ (by simpa using hlt j hj), List.getElem_replicate]
      have p : ∀ x : ℚ, polyVal 5 (fun m => if m = 0 then (3:ℚ) else 0) x = 3 := by
        intro x; simp [polyVal, Finset.sum_range_succ]
      unfold lineOf
      rw [show ([5, 2] : List Nat).getD 0 0 = 5 from rfl,
        List.map_congr_left (g := fun _ => (3:ℚ)) fun j hj => e j (by simpa using hj)]
      simp [p])
  refine ⟨out, a, fun indx hi => ?_⟩
  rw [b indx hi]
  simp [polyDeriv, Finset.sum_range_succ]

end Verif.FinDiff
