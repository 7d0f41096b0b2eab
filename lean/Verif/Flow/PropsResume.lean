import Verif.Flow.Props

/-
C17, C19: which saved values the first trial step uses.
-/
namespace Verif.Flow
variable {K : Type} [Field K] [LinearOrder K] [IsStrictOrderedRing K]

/-- **C17** (which values). A resumed flow reads exactly the last two saved scales; if the flow moves towards larger values of the
auxiliary variable, the first trial step repeats the last step within the limits. -/
theorem c17_resume_partial (tOf lamOf : K → K) (tMax tMin : K) (c : Config K) (grid lambdas : List K) (l0 l1 : K)
    (hi : 0 < c.iterStart) (h0 : lambdas[c.iterStart - 1]? = some l0) (h1 : lambdas[c.iterStart]? = some l1)
    (hnow : c.now = l1) (hdir : 0 ≤ tOf l1 - tOf l0) (hM : tOf l1 - tOf l0 ≤ tMax) (hm : tMin ≤ tOf l1 - tOf l0) :
    initialTry tOf lamOf tMax tMin c grid lambdas = .ok (lamOf (tOf l1 + (tOf l1 - tOf l0)) - l1) := by
  simp only [initialTry, hi, if_true, h0, h1, hnow, c17_increasing_partial hdir hM hm]

/-- **C17** (limits). The step in the auxiliary variable of a resumed flow lies between the two limits. -/
theorem c17_limits_partial (tOf lamOf : K → K) (tMax tMin : K) (l0 l1 now : K) (h0 : 0 < tMin) (h : tMin ≤ tMax) :
    ∃ d, tMin ≤ d ∧ d ≤ tMax ∧ resumeTry tOf lamOf tMax tMin l0 l1 now = lamOf (tOf now + d) - now := by
  refine ⟨max |min |tOf l1 - tOf l0| tMax| tMin, le_max_right _ _, max_le ?_ h, rfl⟩
  have : 0 ≤ min |tOf l1 - tOf l0| tMax := le_min (abs_nonneg _) (h0.le.trans h)
  rw [abs_of_nonneg this]
  exact min_le_right _ _

/-- **C17** (fresh flow). A flow that starts at the beginning tries the first interval of the grid. -/
theorem c17_fresh_partial (tOf lamOf : K → K) (tMax tMin : K) (c : Config K) (g0 g1 : K) (grid lambdas : List K)
    (hi : c.iterStart = 0) : initialTry tOf lamOf tMax tMin c (g0 :: g1 :: grid) lambdas = .ok (g1 - g0) := by
  simp [initialTry, hi]

/-- **C17** (memory safety). Resuming from an iteration that has no saved scale reads outside the list. -/
theorem c17_missing_refuted (tOf lamOf : K → K) (tMax tMin : K) (c : Config K) (grid lambdas : List K)
    (hi : 0 < c.iterStart) (h : lambdas.length ≤ c.iterStart) :
    initialTry tOf lamOf tMax tMin c grid lambdas = .error .undefined := by
  have : lambdas[c.iterStart]? = none := List.getElem?_eq_none h
  simp only [initialTry, hi, if_true, this]
  cases lambdas[c.iterStart - 1]? <;> rfl

example : initialTry (K := ℚ) id id 10 (1/1000) ⟨50, 3, 3, 10, 2, []⟩ [1, 2, 3] [1, 2, 3] = .ok 1 := by decide +kernel

end Verif.Flow
