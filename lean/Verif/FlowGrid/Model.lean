import Mathlib.Algebra.Order.Field.Basic

/-
Model of the construction of the flow grid, /repo/source/grids/flow_grid.c++.  Double-precision numbers are
elements of an arbitrary ordered field.
-/
namespace Verif.FlowGrid

variable {K : Type} [Field K] [LinearOrder K]

/-- `grid.insert(pos, y)` with `pos` the first position whose value is below `y`,
flow_grid.c++:8-10. -/
def insertPoint (grid : List K) (y : K) : List K :=
  grid.takeWhile (fun x => !decide (x < y)) ++ y :: grid.dropWhile (fun x => !decide (x < y))

/-- `add_points_to_Lambda_grid`, flow_grid.c++:3-12; the loop is left at the first negative point.  Grids are
non-empty (`grid[0]` is read). -/
def addPoints (grid : List K) : List K → List K
  | [] => grid
  | y :: ys =>
    if y < 0 then grid
    else addPoints (if grid.head?.any (fun g => decide (y ≤ g)) then insertPoint grid y else grid) ys

/-- `construct_flow_grid` without the added points, flow_grid.c++:55-63 (for no steps the division by zero in
`dX` has no effect). -/
def baseGrid (subst resubst : K → K) (fin ini : K) (n : Nat) : List K :=
  ini :: (List.range n).map (fun i : Nat =>
    resubst (subst ini + ((i : K) + 1) * ((subst fin - subst ini) / (n : K))))

/-- `construct_flow_grid`, flow_grid.c++:52-66. -/
def flowGrid (subst resubst : K → K) (fin ini : K) (n : Nat) (cps : List K) : List K :=
  addPoints (baseGrid subst resubst fin ini n) cps

/-- `flow_grid_step_sizes`, flow_grid.c++:69-75, for a non-empty grid. -/
def stepSizes : List K → List K
  | a :: b :: l => (b - a) :: stepSizes (b :: l)
  | _ => []

/-- `get_Lambda_checkpoints` for `REG == 2`, flow_grid.c++:14-30 (`lini` is `Lambda_ini`). -/
def checkpoints (U Gamma lini : K) : List K → List K
  | [] => []
  | u :: us =>
    let y := 2 * U / u - Gamma
    if y < 0 then [] else if y ≤ lini then y :: checkpoints U Gamma lini us else checkpoints U Gamma lini us

end Verif.FlowGrid
