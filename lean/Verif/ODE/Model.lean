import Mathlib.Algebra.Module.Basic
import Mathlib.Algebra.Field.Rat
import Mathlib.Data.Rat.Defs

/-
Model of the Runge-Kutta tableaux and of one Runge-Kutta step,
/repo/source/ODE_solvers/ODE_solvers.hpp:116-288.  Double-precision numbers are rational numbers (tableaux)
or elements of an arbitrary field of scalars.
-/
namespace Verif.ODE

/-- `butcher_tableau<stages>`, ODE_solvers.hpp:120-157. -/
structure Tableau where
  stages : Nat
  a : List ℚ
  bHigh : List ℚ
  bLow : List ℚ
  c : List ℚ
  adaptive : Bool

/-- `get_a`, ODE_solvers.hpp:132-141 (reads outside the array, which no caller performs, give 0). -/
def Tableau.getA (T : Tableau) (row col : Nat) : ℚ :=
  if row = 0 ∨ col = T.stages then 0 else T.a.getD ((row - 1) * (T.stages - 1) + col) 0

/-- `get_node`, ODE_solvers.hpp:143-151. -/
def Tableau.getNode (T : Tableau) (stage : Nat) : ℚ := if stage = 0 then 0 else T.c.getD (stage - 1) 0

/-- `get_error_b`, ODE_solvers.hpp:153-156. -/
def Tableau.getErrorB (T : Tableau) (stage : Nat) : ℚ := T.bHigh.getD stage 0 - T.bLow.getD stage 0

/-- `cash_carp`, ODE_solvers.hpp:162-177. -/
def cashKarp : Tableau where
  stages := 6
  a := [1/5, 0, 0, 0, 0,
        3/40, 9/40, 0, 0, 0,
        3/10, -9/10, 6/5, 0, 0,
        -11/54, 5/2, -70/27, 35/27, 0,
        1631/55296, 175/512, 575/13824, 44275/110592, 253/4096]
  bHigh := [37/378, 0, 250/621, 125/594, 0, 512/1771]
  bLow := [2825/27648, 0, 18575/48384, 13525/55296, 277/14336, 1/4]
  c := [1/5, 3/10, 3/5, 1, 7/8]
  adaptive := true

/-- `RK4basic`, ODE_solvers.hpp:179-192. -/
def rk4 : Tableau where
  stages := 4
  a := [1/2, 0, 0,
        0, 1/2, 0,
        0, 0, 1]
  bHigh := [1/6, 1/3, 1/3, 1/6]
  bLow := [1/6, 1/3, 1/3, 1/6]
  c := [1/2, 1/2, 1]
  adaptive := false

/-- `BogaSha`, ODE_solvers.hpp:196-209. -/
def bogackiShampine : Tableau where
  stages := 4
  a := [1/2, 0, 0,
        0, 3/4, 0,
        2/9, 1/3, 4/9]
  bHigh := [2/9, 1/3, 4/9, 0]
  bLow := [7/24, 1/4, 1/3, 1/8]
  c := [1/2, 3/4, 1]
  adaptive := true

section Step

variable {K Y : Type} [Field K] [AddCommGroup Y] [Module K Y]

/-- The parametrisation used by the solver: `lambda_from_t` and `dlambda_dt`. -/
structure FlowParam (K : Type) where
  lam : K → K
  dlam : K → K

/-- State of one stage: `y_init + Σ_col k[col] * (stepsize * a(stage, col))`, ODE_solvers.hpp:257-262. -/
def stageState (T : Tableau) (y : Y) (h : K) (k : List Y) (stage : Nat) : Y :=
  (List.range stage).foldl (fun s col => s + (h * (T.getA stage col : K)) • k.getD col 0) y

/-- The stage loop, ODE_solvers.hpp:243-270 (with `REPARAMETRIZE_FLOWGRID`, the default): `n` further
stages. -/
def stageLoop (T : Tableau) (p : FlowParam K) (rhs : Y → K → Y) (y : Y) (t h : K) : Nat → List Y → List Y
  | 0, k => k
  | n + 1, k =>
    let stage := k.length
    let ts := t + h * (T.getNode stage : K)
    stageLoop T p rhs y t h n (k ++ [p.dlam ts • rhs (stageState T y h k stage) (p.lam ts)])

/-- All slopes `k`; the first one is the given derivative times `dlambda_dt` (lines 232-237). -/
def slopes (T : Tableau) (p : FlowParam K) (rhs : Y → K → Y) (y dydx : Y) (t h : K) : List Y :=
  stageLoop T p rhs y t h (T.stages - 1) [p.dlam t • dydx]

/-- `result`, ODE_solvers.hpp:272-276. -/
def combine (b : List ℚ) (y : Y) (h : K) (k : List Y) : Y :=
  (List.range k.length).foldl (fun s i => s + (h * (b.getD i 0 : K)) • k.getD i 0) y

/-- `err`, ODE_solvers.hpp:278-282. -/
def errorVec (T : Tableau) (h : K) (k : List Y) : Y :=
  (List.range' 1 (k.length - 1)).foldl (fun s i => s + (h * (T.getErrorB i : K)) • k.getD i 0)
    ((h * (T.getErrorB 0 : K)) • k.getD 0 0)

/-- `rk_step` (ODE_solvers.hpp:224-288) returns the new state and the error vector; `dydx` is the
right-hand side at the initial point.  The scalar `maxrel_error` (283-284) is a function of these and is
treated as an arbitrary function in the model of the step control. -/
def rkStep (T : Tableau) (p : FlowParam K) (rhs : Y → K → Y) (y dydx : Y) (t h : K) : Y × Y :=
  let k := slopes T p rhs y dydx t h
  (combine T.bHigh y h k, errorVec T h k)

end Step

end Verif.ODE
