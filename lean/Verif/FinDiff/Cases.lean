import Verif.FinDiff.Props
import Verif.FinDiff.PropsMulti
import Verif.FinDiff.PropsDomain

/-! Concrete cases that meet the hypotheses of C42 and C43. -/
namespace Verif.FinDiff
open Verif Verif.Index Verif.MultiArray

example : lineV2 (1/10^15) 6 (rd [(-3 : ℚ), -1, 0, 2, 3, 7]) (rd ([(-3 : ℚ), -1, 0, 2, 3, 7].map
      (polyVal 5 fun m => if m = 4 then (1:ℚ) else 0))) 2 = .error .assertion ∨
    lineV2 (1/10^15) 6 (rd [(-3 : ℚ), -1, 0, 2, 3, 7]) (rd ([(-3 : ℚ), -1, 0, 2, 3, 7].map
      (polyVal 5 fun m => if m = 4 then (1:ℚ) else 0))) 2 = .ok (polyDeriv 5 (fun m => if m = 4 then (1:ℚ) else 0) (0 : ℚ)) :=
  c42_general_partial (1/10^15) [(-3 : ℚ), -1, 0, 2, 3, 7] (by decide +kernel) (by decide) _ 2 (by decide)

/-- Order seven on seven points. -/
example : lineV3 7 (1/10^15) 7 (rd [(-3 : ℚ), -1, 0, 2, 3, 7, 8]) (rd ([(-3 : ℚ), -1, 0, 2, 3, 7, 8].map
      (polyVal 7 fun m => if m = 6 then (1:ℚ) else 0))) 3 = .error .assertion ∨
    lineV3 7 (1/10^15) 7 (rd [(-3 : ℚ), -1, 0, 2, 3, 7, 8]) (rd ([(-3 : ℚ), -1, 0, 2, 3, 7, 8].map
      (polyVal 7 fun m => if m = 6 then (1:ℚ) else 0))) 3 = .ok (polyDeriv 7 (fun m => if m = 6 then (1:ℚ) else 0) (2 : ℚ)) :=
  c42_order_partial 7 rfl (1/10^15) [(-3 : ℚ), -1, 0, 2, 3, 7, 8] (by decide +kernel) (by decide) _ 3 (by decide)

example : lineV4 5 (1/10^15 : ℚ) 6 (rd ((List.range 6).map fun k : Nat => polyVal 5 (fun m => (m : ℚ)) (k : ℚ))) 4
    = .ok (polyDeriv 5 (fun m => (m : ℚ)) (4 : ℚ)) := by
  have := c42_unit_grid 5 rfl (1/10^15 : ℚ) (by norm_num) 6 (by norm_num) (fun m => (m : ℚ)) 4 (by norm_num)
  exact_mod_cast this

example : stencil 6 (rd ((List.range 6).map fun k : Nat => (1 : ℚ) + (k : ℚ) * 2))
      (rd ((List.range 6).map fun k : Nat => polyVal 5 (fun m => (m : ℚ)) (1 + (k : ℚ) * 2))) 0
      = .ok (polyDeriv 5 (fun m => (m : ℚ)) (1 + ((0 : Nat) : ℚ) * 2)) :=
  c42_equidistant_partial 6 (by norm_num) 1 2 (by norm_num) _ 0 (by norm_num)

example : threePoint ℚ ((List.range 4).map fun j : Nat => polyVal 3 (fun m => (m : ℚ)) (j : ℚ)) 3
    = polyDeriv 3 (fun m => (m : ℚ)) (3 : ℚ) := by
  have := c43_three_point_exact (K := ℚ) 4 (by norm_num) (fun m => (m : ℚ)) 3 (by norm_num)
  exact_mod_cast this

/-- An interior row of an array of shape 2 × 3 × 2. -/
example : ∃ out, partialDerivArr ℚ (MArr.make [2, 3, 2] (4 : ℚ)) 1 = .ok out ∧ out.len = [2, 3, 2] := by
  obtain ⟨out, h, h', -⟩ := c43_array_rows_partial (K := ℚ) (MArr.make [2, 3, 2] (4 : ℚ)) (make_wf _ _ (by simp)) 1
    (by decide) (by decide) [1, 1, 0]
    (List.Forall₂.cons (by omega) (List.Forall₂.cons (by omega) (List.Forall₂.cons (by omega) List.Forall₂.nil)))
    (Or.inl (by decide))
  exact ⟨out, h, h'⟩

example (line : (Nat → Res ℚ) → (Nat → Res ℚ) → Nat → Res ℚ) :
    finDiff line 5 (List.replicate 8 0) [0, 1, 2, 3] [2, 4] [0, 1] [] = .error .assertion :=
  c43_refused line 5 _ _ _ _ _ 4 rfl (Or.inr (by decide))

example (line : (Nat → Res ℚ) → (Nat → Res ℚ) → Nat → Res ℚ) :
    partialDerivVec line 5 (List.replicate 8 0) [0, 1, 2, 3] [2, 4] 2 [] = .error .assertion :=
  c43_no_axis line 5 _ _ _ _ 2 (by decide)

end Verif.FinDiff
