import Verif.ODE.Model
import Mathlib.Data.Real.Basic
import Mathlib.Data.Rat.Cast.CharZero

/-
The states a flow goes through, /repo/source/ODE_solvers/ODE_solvers.hpp:445-566 with the steps of 300-440, and the older
Runge-Kutta step of /repo/source/ODE_solvers/old_solvers.hpp.
-/
namespace Verif.Accuracy
open Verif.ODE

variable {Y : Type} [AddCommGroup Y] [Module ℝ Y]

/-- One accepted step of `rkqs`, ODE_solvers.hpp:317-321 and 338: the derivative at the start is computed first, from the
flow parameter `lambda_from_t(t)`; rejected attempts leave no trace in the state. -/
noncomputable def step (T : Tableau) (p : FlowParam ℝ) (rhs : Y → ℝ → Y) (y : Y) (t h : ℝ) : Y :=
  (rkStep T p rhs y (rhs y (p.lam t)) t h).1

/-- The flow with the accepted steps `hs`, ODE_solvers.hpp:496-563.  `post n` is what happens to the state after step `n`
(`postRKstep_stuff`, 30-62: the frequency grids are rescaled and the state is interpolated). -/
noncomputable def walk (T : Tableau) (p : FlowParam ℝ) (rhs : Y → ℝ → Y) (post : ℕ → Y → Y) : ℕ → ℝ → Y → List ℝ → Y
  | _, _, y, [] => y
  | n, t, y, h :: hs => walk T p rhs post (n + 1) (t + h) (post n (step T p rhs y t h)) hs

/-- `old_ode_solvers::RK4_step`, old_solvers.hpp:15-30 and 29 (`ODE_solver_RK4`, which calls it, does not compile: it
passes too few arguments to `postRKstep_stuff`). -/
noncomputable def oldStep (rhs : Y → ℝ → Y) (y : Y) (x dx : ℝ) : Y × ℝ :=
  let y1 := dx • rhs y x
  let y2 := dx • rhs (y + (1 / 2 : ℝ) • y1) (x + dx / 2)
  let y3 := dx • rhs (y + (1 / 2 : ℝ) • y2) (x + dx / 2)
  let y4 := dx • rhs (y + y3) (x + dx)
  (y + (1 / 6 : ℝ) • (y1 + (2 : ℝ) • y2 + (2 : ℝ) • y3 + y4), x + dx)

end Verif.Accuracy
