import Verif.Collapse.Props
import Verif.Collapse.PropsDomain

/-! Concrete cases that meet the hypotheses of C44 and C10. -/
namespace Verif.Collapse
open Verif Verif.Index

/-- A 2 × 3 × 2 array collapsed to its last and first axis. -/
example : ∃ out, collapse (· + ·) ([1, 2, 3, 4, 5, 6, 7, 8, 9, 10, 11, 12] : List ℚ) [2, 3, 2] [2, 0] [3, 1, 0, 2] = .ok out ∧
    out.length = 4 := by
  obtain ⟨out, h, h', -⟩ := c44_collapse (· + ·) ([1, 2, 3, 4, 5, 6, 7, 8, 9, 10, 11, 12] : List ℚ) [2, 3, 2] [2, 0]
    [3, 1, 0, 2] (by decide) (by decide) rfl (by decide) (by decide) (by decide)
  exact ⟨out, h, h'⟩

example : ∃ out, maxabs (fun x : ℚ => |x|) id [1, -2, 3, 4, 5, -6] [2, 3] 1 [0, 2, 1] = .ok out ∧ out.length = 3 := by
  obtain ⟨out, h, h', -⟩ := c44_maxabs (fun x : ℚ => |x|) id (fun q h => abs_of_nonneg h) (fun x => abs_nonneg x)
    [1, -2, 3, 4, 5, -6] [2, 3] 1 [0, 2, 1] (by decide) (by decide) rfl (by decide)
  exact ⟨out, h, h'⟩

example : (collapseAll (· + ·) [3, 4, 5] (sequentialEvents 3)).toOption = some 12 :=
  c10_single_thread_partial (· + ·) [3, 4, 5] (by decide)

example : collapse (· + ·) ([1, 2] : List ℚ) [2] [1] [0] = .error .undefined :=
  c44_domain_axis _ _ _ _ _ 1 [] rfl (by decide)

end Verif.Collapse
