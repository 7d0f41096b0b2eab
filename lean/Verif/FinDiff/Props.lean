import Verif.FinDiff.Lemmas
import Mathlib.Data.Rat.Lemmas
import Mathlib.Algebra.Order.Ring.Rat
import Mathlib.Tactic.NormNum
import Mathlib.Tactic.FieldSimp
import Mathlib.Tactic.Ring
import Mathlib.Tactic.IntervalCases

/-! C42: finite differences of polynomial data.  A grid is a strictly increasing list `xs`; the data are
the values of a polynomial with coefficients in a vector space at the points of the grid. -/
namespace Verif.FinDiff
open Verif

variable {K W : Type} [Field K] [LinearOrder K] [IsStrictOrderedRing K] [AddCommGroup W] [Module K W]

/-- **C42** (the routine behind `partial_deriv`).  On every strictly increasing grid of at least five
points, the result for data of degree at most four is the exact derivative at every grid point — or the
program stops with an assertion.  Missing from the full property: the absence of the assertion. -/
theorem c42_general_partial (eps : K) (xs : List K) (hmono : xs.Pairwise (· < ·)) (hn : 5 ≤ xs.length)
    (c : Nat → W) (jt : Nat) (hj : jt < xs.length) :
    lineV2 eps xs.length (rd xs) (rd (xs.map (polyVal 5 c))) jt = .error .assertion ∨
    lineV2 eps xs.length (rd xs) (rd (xs.map (polyVal 5 c))) jt = .ok (polyDeriv 5 c xs[jt]) := by
  obtain ⟨noI, lo, up, e, h1, h2, h3, h4, h5, h6, h7⟩ := lineV2_cases eps xs.length hn (rd xs)
    (rd (xs.map (polyVal 5 c))) jt hj
  rw [e]
  exact (helper_poly eps xs hmono 5 c jt noI lo up h1 h2 h3 h4 h5 h6 (by omega)).1

/-- **C42** (when no assertion fires).  If neighbouring points are at least `h` apart with `eps < h^4` and
`h ≤ 1` (for the `1e-15` of the code: a spacing of `2e-4` suffices), the exact derivative is returned. -/
theorem c42_separated_partial (eps : K) (xs : List K) (hmono : xs.Pairwise (· < ·)) (hn : 5 ≤ xs.length)
    (h : K) (h0 : 0 < h) (h1 : h ≤ 1) (heps : eps < h ^ 4)
    (hsep : ∀ i (hi : i + 1 < xs.length), h ≤ xs[i+1] - xs[i])
    (c : Nat → W) (jt : Nat) (hj : jt < xs.length) :
    lineV2 eps xs.length (rd xs) (rd (xs.map (polyVal 5 c))) jt = .ok (polyDeriv 5 c xs[jt]) := by
  obtain ⟨noI, lo, up, e, h1', h2, h3, h4, h5, h6, h7⟩ := lineV2_cases eps xs.length hn (rd xs)
    (rd (xs.map (polyVal 5 c))) jt hj
  rw [e]
  have hlt : ∀ i j (hi : i < xs.length) (hj : j < xs.length), i < j → h ≤ xs[j] - xs[i] := by
    intro i j hi hj hij
    have a := hsep i (by omega)
    have b : xs[i+1] ≤ xs[j] := by
      rcases Nat.eq_or_lt_of_le (show i + 1 ≤ j by omega) with hh | hh
      · subst hh; exact le_rfl
      · exact (List.pairwise_iff_getElem.mp hmono _ _ (by omega) hj hh).le
    linarith
  refine (helper_poly eps xs hmono 5 c jt noI lo up h1' h2 h3 h4 h5 h6 (by omega)).2 h h0.le ?_ ?_
  · intro i j hi hj hne
    rcases Nat.lt_or_gt_of_ne hne with hh | hh
    · rw [abs_sub_comm]; exact (hlt i j hi hj hh).trans (le_abs_self _)
    · exact (hlt j i hj hi hh).trans (le_abs_self _)
  · intro k hk
    exact heps.trans_le (pow_le_pow_of_le_one h0.le h1 (by omega))

/-- **C42** (general odd order, `get_finite_differences_v3`): data of degree below `order` are
differentiated exactly at every point of every strictly increasing grid of at least `order` points, or
an assertion fails. -/
theorem c42_order_partial (order : Nat) (hodd : order % 2 = 1) (eps : K) (xs : List K)
    (hmono : xs.Pairwise (· < ·)) (hn : order ≤ xs.length) (c : Nat → W) (jt : Nat) (hj : jt < xs.length) :
    lineV3 order eps xs.length (rd xs) (rd (xs.map (polyVal order c))) jt = .error .assertion ∨
    lineV3 order eps xs.length (rd xs) (rd (xs.map (polyVal order c))) jt
      = .ok (polyDeriv order c xs[jt]) := by
  obtain ⟨noI, lo, up, e, h1, h2, h3, h4, h5, h6, h7⟩ := lineV3_cases order hodd eps xs.length hn (rd xs)
    (rd (xs.map (polyVal order c))) jt hj
  rw [e]
  exact (helper_poly eps xs hmono order c jt noI lo up h1 h2 h3 h4 h5 h6 (by omega)).1

/-- **C42** (`get_finite_differences_v4`, grid of spacing one).  Data that are a polynomial of degree
below `order` in the number of the point are differentiated exactly, for every number of points; no
assertion fires for a threshold below one. -/
theorem c42_unit_grid (order : Nat) (hodd : order % 2 = 1) (eps : K) (heps : eps < 1) (n : Nat) (hn : order ≤ n)
    (c : Nat → W) (jt : Nat) (hj : jt < n) :
    lineV4 order eps n (rd ((List.range n).map fun k : Nat => polyVal order c (k : K))) jt
      = .ok (polyDeriv order c (jt : K)) := by
  set xs : List K := (List.range n).map fun k : Nat => (k : K) with hxs
  have hlen : xs.length = n := by simp [hxs]
  have hfs : (List.range n).map (fun k : Nat => polyVal order c (k : K)) = xs.map (polyVal order c) := by
    simp [hxs, Function.comp_def]
  have hget : ∀ i (hi : i < xs.length), xs[i] = (i : K) := by intro i hi; simp [hxs]
  have hmono : xs.Pairwise (· < ·) := by
    rw [List.pairwise_iff_getElem]
    intro i j hi hj' hij
    rw [hget, hget]; exact_mod_cast hij
  unfold lineV4
  obtain ⟨noI, lo, up, e, h1, h2, h3, h4, h5, h6, h7⟩ := lineV3_cases order hodd eps n hn (unitGrid K)
    (rd ((List.range n).map fun k : Nat => polyVal order c (k : K))) jt hj
  rw [e, hfs, helper_congr eps (unitGrid K) (rd xs) _ (rd (xs.map (polyVal order c))) jt noI lo up h2 h3 h4
    (fun j ha hb => rdI_congr n _ _ (fun k hk => by
      rw [rd_ok _ _ (by omega), hget]; rfl) jt j (by omega) (by omega)) (fun _ _ _ => rfl)]
  have := (helper_poly eps xs hmono order c jt noI lo up h1 h2 h3 h4 h5 (by rw [hlen]; exact h6) (by omega)).2 1
    zero_le_one ?_ (fun k _ => by simpa using heps)
  · rw [this, hget]
  · intro i j hi hj' hne
    rw [hget, hget]
    have : (1 : Int) ≤ |(i : Int) - j| := Int.one_le_abs (by omega)
    exact_mod_cast this

/-- **C42** (the first version, `get_finite_differences`).  On equidistant grids of at least five points
it is exact for degree at most four.  Missing: grids that are not equidistant, see
`c42_nonuniform_refuted`. -/
theorem c42_equidistant_partial (n : Nat) (hn : 5 ≤ n) (a h : K) (hh : 0 < h) (c : Nat → W) (jt : Nat) (hj : jt < n) :
    stencil n (rd ((List.range n).map fun k : Nat => a + (k : K) * h))
      (rd ((List.range n).map fun k : Nat => polyVal 5 c (a + (k : K) * h))) jt
      = .ok (polyDeriv 5 c (a + (jt : K) * h)) := by
  have hx : ∀ k < n, rd ((List.range n).map fun k : Nat => a + (k : K) * h) k = .ok (a + (k : K) * h) := by
    intro k hk; rw [rd_ok _ _ (by simpa using hk)]; simp
  have hf : ∀ k < n, rd ((List.range n).map fun k : Nat => polyVal 5 c (a + (k : K) * h)) k
      = .ok (polyVal 5 c (a + (k : K) * h)) := by
    intro k hk; rw [rd_ok _ _ (by simpa using hk)]; simp
  have h12 : h * 12 ≠ 0 := mul_ne_zero hh.ne' (by norm_num)
  have h12' : 12 * h ≠ 0 := mul_ne_zero (by norm_num) hh.ne'
  unfold stencil
  split_ifs with h0 h1 h2 h3
  · subst h0
    simp only [hx 0 (by omega), hx (0+1) (by omega), hf 0 (by omega), hf (0+1) (by omega), hf (0+2) (by omega),
      hf (0+3) (by omega), hf (0+4) (by omega), bind, Except.bind, pure, Except.pure]
    congr 1
    rw [show a + ((0+1 : Nat) : K) * h - (a + ((0 : Nat) : K) * h) = h by push_cast; ring, one_div,
      inv_smul_eq_iff₀ h12]
    simp only [polyVal, polyDeriv, Finset.sum_range_succ, Finset.sum_range_zero]
    push_cast
    module
  · subst h1
    simp only [hx 1 (by omega), hx (1+1) (by omega), hf (1-1) (by omega), hf 1 (by omega), hf (1+1) (by omega),
      hf (1+2) (by omega), hf (1+3) (by omega), bind, Except.bind, pure, Except.pure]
    congr 1
    rw [show a + ((1+1 : Nat) : K) * h - (a + ((1 : Nat) : K) * h) = h by push_cast; ring, one_div,
      inv_smul_eq_iff₀ h12]
    simp only [polyVal, polyDeriv, Finset.sum_range_succ, Finset.sum_range_zero]
    push_cast
    module
  · obtain ⟨m, rfl⟩ : ∃ m, jt = m + 3 := ⟨jt - 3, by omega⟩
    simp only [show m + 3 - 1 = m + 2 by omega, show m + 3 - 2 = m + 1 by omega, show m + 3 - 3 = m by omega]
    simp only [hx (m+2) (by omega), hx (m+3) (by omega), hf m (by omega), hf (m+1) (by omega), hf (m+2) (by omega),
      hf (m+3) (by omega), hf (m+3+1) (by omega), bind, Except.bind, pure, Except.pure]
    congr 1
    rw [show a + ((m+3 : Nat) : K) * h - (a + ((m+2 : Nat) : K) * h) = h by push_cast; ring, one_div,
      inv_smul_eq_iff₀ h12]
    simp only [polyVal, polyDeriv, Finset.sum_range_succ, Finset.sum_range_zero]
    push_cast
    module
  · obtain ⟨m, rfl⟩ : ∃ m, jt = m + 4 := ⟨jt - 4, by omega⟩
    simp only [show m + 4 - 1 = m + 3 by omega, show m + 4 - 2 = m + 2 by omega, show m + 4 - 3 = m + 1 by omega,
      show m + 4 - 4 = m by omega]
    simp only [hx (m+3) (by omega), hx (m+4) (by omega), hf m (by omega), hf (m+1) (by omega), hf (m+2) (by omega),
      hf (m+3) (by omega), hf (m+4) (by omega), bind, Except.bind, pure, Except.pure]
    congr 1
    rw [show a + ((m+4 : Nat) : K) * h - (a + ((m+3 : Nat) : K) * h) = h by push_cast; ring, one_div,
      inv_smul_eq_iff₀ h12]
    simp only [polyVal, polyDeriv, Finset.sum_range_succ, Finset.sum_range_zero]
    push_cast
    module
  · obtain ⟨m, rfl⟩ : ∃ m, jt = m + 2 := ⟨jt - 2, by omega⟩
    simp only [show m + 2 - 1 = m + 1 by omega, show m + 2 - 2 = m by omega]
    simp only [hx (m+2) (by omega), hx (m+2+1) (by omega), hf m (by omega), hf (m+1) (by omega),
      hf (m+2+1) (by omega), hf (m+2+2) (by omega), bind, Except.bind, pure, Except.pure]
    congr 1
    rw [show a + ((m+2+1 : Nat) : K) * h - (a + ((m+2 : Nat) : K) * h) = h by push_cast; ring, one_div,
      inv_smul_eq_iff₀ h12']
    simp only [polyVal, polyDeriv, Finset.sum_range_succ, Finset.sum_range_zero]
    push_cast
    module

/-- **C42** is false of `get_finite_differences`: on the grid `0, 1, 2, 3, 5` the derivative of `f x = x`
at the middle point comes out as `11/12`... -/
theorem c42_nonuniform_refuted :
    ∃ (xs : List ℚ) (c : Nat → ℚ) (jt : Nat) (hj : jt < xs.length), xs.Pairwise (· < ·) ∧ 5 ≤ xs.length ∧
      stencil xs.length (rd xs) (rd (xs.map (polyVal 5 c))) jt ≠ .ok (polyDeriv 5 c xs[jt]) := by
  refine ⟨[0, 1, 2, 3, 5], fun m => if m = 1 then 1 else 0, 2, by decide, by decide +kernel, by decide, ?_⟩
  have h : stencil 5 (rd [(0:ℚ), 1, 2, 3, 5]) (rd [(0:ℚ), 1, 2, 3, 5]) 2 = .ok (11/12) := by
    simp only [stencil, rd, bind, Except.bind, pure, Except.pure]
    norm_num
  have e : ([0, 1, 2, 3, 5] : List ℚ).map (polyVal 5 fun m => if m = 1 then (1:ℚ) else 0) = [0, 1, 2, 3, 5] := by
    simp [polyVal, Finset.sum_range_succ]
  rw [e]
  simp only [List.length_cons, List.length_nil]
  rw [h]
  simp only [polyDeriv, Finset.sum_range_succ]
  norm_num

/-- **C42** is false of `get_finite_differences_v2` on fine grids: at spacing `1e-4` the products of
distances fall below the asserted threshold and the program stops. -/
theorem c42_fine_grid_refuted :
    ∃ (xs : List ℚ), xs.Pairwise (· < ·) ∧ xs.length = 5 ∧
      ∀ f : List ℚ, f.length = 5 → lineV2 (1/10^15) xs.length (rd xs) (rd f) 0 = .error .assertion := by
  refine ⟨[0, 1/10^4, 2/10^4, 3/10^4, 4/10^4], by decide +kernel, rfl, ?_⟩
  intro f hf
  simp only [lineV2, helper, List.length_cons, List.length_nil, if_true]
  have : helperStep (1/10^15) (rd [(0:ℚ), 1/10^4, 2/10^4, 3/10^4, 4/10^4]) (rd f) 0 [1, 2, 3, 4] 0 4 (0, 0) 1
      = .error .assertion := by
    have d : (do
        let d ← (intRange 0 1).foldlM (denomStep (1/10^15) (rd [(0:ℚ), 1/10^4, 2/10^4, 3/10^4, 4/10^4]) 0 1) 1
        (intRange (1+1) (4+1)).foldlM (denomStep (1/10^15) (rd [(0:ℚ), 1/10^4, 2/10^4, 3/10^4, 4/10^4]) 0 1) d)
        = .error .assertion := by decide +kernel
    unfold helperStep
    rw [← bind_assoc, d]; rfl
  rw [List.foldlM_cons, this]; rfl

/-! Non-vacuity: a non-equidistant grid with spacing at least one, the threshold of the code, and a quartic. -/
example : lineV2 (1/10^15) 6 (rd [(-3 : ℚ), -1, 0, 2, 3, 7]) (rd ([(-3 : ℚ), -1, 0, 2, 3, 7].map
      (polyVal 5 fun m => if m = 4 then (1:ℚ) else 0))) 1 = .ok (-4) := by
  have := c42_separated_partial (1/10^15) [(-3 : ℚ), -1, 0, 2, 3, 7] (by decide +kernel) (by decide) 1
    (by norm_num) le_rfl (by norm_num) (by
      intro i hi
      have : i < 5 := by simp at hi; omega
      interval_cases i <;> norm_num) (fun m => if m = 4 then (1:ℚ) else 0) 1 (by decide)
  rw [show (6 : Nat) = [(-3 : ℚ), -1, 0, 2, 3, 7].length from rfl, this]
  congr 1
  simp only [polyDeriv, Finset.sum_range_succ]
  norm_num

end Verif.FinDiff
