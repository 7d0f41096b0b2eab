import Verif.Quad.Model
import Verif.Outcome

/-
`integrator_Matsubara_T0`, source/integrator/integrator.hpp:425-472, and the integrator over a list of intervals,
lines 368-392.  It is used for all self-energy loops and for bubbles at zero temperature.
-/
namespace Verif.Quad

variable {E : Type} [NormedAddCommGroup E] [NormedSpace ℝ E]

/-- `tol`, line 426. -/
noncomputable def tolT0 : ℝ := 1 / 10 ^ 10

/-- `w_half` after lines 432-433. -/
noncomputable def effW (wHalf : ℝ) : ℝ := open Classical in if wHalf < tolT0 then 0 else wHalf

/-- `intersections`, lines 432-449, before sorting. -/
noncomputable def pointsT0 (vmin vmax wHalf : ℝ) (freqs : List ℝ) : List ℝ :=
  open Classical in
  (if wHalf < tolT0 then [effW wHalf, vmin, vmax] else [-wHalf, wHalf, vmin, vmax]) ++
    freqs.flatMap fun x => [-1 * x, 1 * x]

/-- `num_intervals_max`, lines 435 and 439. -/
noncomputable def maxT0 (wHalf : ℝ) (freqs : List ℝ) : Nat :=
  open Classical in if wHalf < tolT0 then freqs.length * 2 + 2 else freqs.length * 2 + 3

/-- The test of lines 457 and 463. -/
def near (w x : ℝ) : Prop := |(|x| - w)| < tolT0

/-- Change the last element. -/
def modifyLast {α : Type} (g : α → α) : List α → List α
  | [] => []
  | [x] => [g x]
  | x :: y :: r => x :: modifyLast g (y :: r)

/-- The body of the loop over intersections, lines 454-462.  `cells`: the intervals found so far. -/
noncomputable def stepT0 (w : ℝ) (s : Nat → ℝ) (cells : List (ℝ × ℝ)) (i : Nat) : List (ℝ × ℝ) :=
  open Classical in
  if s i ≠ s (i + 1) then
    if near w (s i) then modifyLast (fun c => (c.1, c.2 - tolT0)) cells ++ [(s i + tolT0, s (i + 1))]
    else cells ++ [(s i, s (i + 1))]
  else cells

/-- The sorted intersections; reading outside is excluded by `c87_in_range`. -/
noncomputable def sortedT0 (vmin vmax wHalf : ℝ) (freqs : List ℝ) (i : Nat) : ℝ :=
  ((pointsT0 vmin vmax wHalf freqs).insertionSort (· ≤ ·)).getD i 0

/-- The intervals, lines 425-465.  Without any interval `intervals[num_intervals-1]` in line 463 is read before the
beginning of the vector. -/
noncomputable def intervalsT0 (vmin vmax wHalf : ℝ) (freqs : List ℝ) : Res (List (ℝ × ℝ)) :=
  open Classical in
  let cells := (List.range (maxT0 wHalf freqs)).foldl (stepT0 (effW wHalf) (sortedT0 vmin vmax wHalf freqs)) []
  if cells = [] then .error .undefined
  else .ok (modifyLast (fun c => if near (effW wHalf) c.2 then (c.1, c.2 - tolT0) else c) cells)

/-- `integrator(integrand, intervals, num_intervals, isinf)`, lines 383-400.  Empty lists of intervals do not occur
here. -/
noncomputable def overIntervals (I : ℝ → ℝ → E) (L U : ℝ → E) (cells : List (ℝ × ℝ)) (isinf : Bool) : E :=
  open Classical in
  let r := (cells.map fun c => if c.1 < c.2 then I c.1 c.2 else 0).sum
  if isinf then r + L ((cells.head?.map Prod.fst).getD 0) + U ((cells.getLast?.map Prod.snd).getD 0) else r

/-- `integrator_Matsubara_T0`. -/
noncomputable def integrateT0 (I : ℝ → ℝ → E) (L U : ℝ → E) (vmin vmax wHalf : ℝ) (freqs : List ℝ) (isinf : Bool) :
    Res E := do
  let cells ← intervalsT0 vmin vmax wHalf freqs
  return overIntervals I L U cells isinf

end Verif.Quad
