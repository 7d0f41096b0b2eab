import Verif.Outcome
import Mathlib.Algebra.Group.Defs
import Mathlib.Algebra.Order.Ring.Rat

/-
The right-hand side of the multiloop flow: `rhs_n_loop_flow`, source/mfRG_flow/right_hand_sides.hpp:172-555,
with `SELF_ENERGY_FLOW_CORRECTIONS` 0 or 1.

Modelled: which contributions are computed, in which order they are accumulated, when the loops over loop
orders and over self-energy iterations end.  The bubbles and loops themselves are functions of the vertices and
self-energies that enter them (`Eqs`).  Not modelled: printing, saving of intermediate results, tests of
symmetries, `SELF_ENERGY_FLOW_CORRECTIONS == 2`.
-/
namespace Verif.MfRG

/-- The diagrams, as functions of what enters them.  `V`: differentiated vertices, `S`: differentiated
self-energies.  The known state `Psi` and the propagator `G` are fixed during one evaluation. -/
structure Eqs (V S : Type) where
  /-- `selfEnergyOneLoopFlow`, line 208 -/
  oneSE : S
  /-- `vertexOneLoopFlow` with the propagator derivative built from the given self-energy derivative, lines
  226-251 (with `KATANIN`; otherwise the argument is not used) -/
  one : S → V
  /-- `calculate_dGammaL`, lines 286 and 401 -/
  left : V → V
  /-- `calculate_dGammaR`, lines 293 and 404 -/
  right : V → V
  /-- central part from the two stored halves, lines 331-394: `(dGammaC_r + dGammaC_l) * 0.5` -/
  central : V → V → V
  /-- `reorder_due2antisymmetry`, lines 308 and 418; the identity with `DEBUG_SYMMETRIES` -/
  reorder : V × V → V × V
  /-- `selfEnergyFlowCorrections`, line 442 -/
  corr : V → S
  /-- acceleration from the lists of evaluations and of accepted iterates, line 454 (the vertex that enters the
  states is passed along); without acceleration the last evaluation, line 456 -/
  accel : List (V × S) → List (V × S) → S
  /-- `norm()` of a vertex; `none` is NaN -/
  absV : V → Option ℚ
  /-- `dGammaT.norm() / dPsi.vertex.norm()`, line 431 -/
  relV : V → V → Option ℚ
  /-- `norm()` of the difference of self-energies, line 461 -/
  absS : S → Option ℚ
  /-- `rel_deviation_to`, line 462 -/
  relS : S → S → Option ℚ

/-- Configuration: `nloops_max` is an argument; the others are in parameters/master_parameters.hpp:41-46. -/
structure Cfg where
  nloops : Int
  /-- `SELF_ENERGY_FLOW_CORRECTIONS != 0` -/
  seCorr : Bool
  /-- `nmax_Selfenergy_iterations` -/
  nmax : Nat
  tolAbs : ℚ
  tolRel : ℚ
  seTolAbs : ℚ
  seTolRel : ℚ

/-- `x < tol` for a number that may be NaN. -/
def below (x : Option ℚ) (tol : ℚ) : Bool := match x with
  | some y => y < tol
  | none => false

/-- `x > tol` for a number that may be NaN. -/
def above (x : Option ℚ) (tol : ℚ) : Bool := match x with
  | some y => y > tol
  | none => false

/-- Variables of the loop over loop orders: `dPsi.vertex`, `dGammaT`, `dGammaL_half1`, `dGammaR_half1`,
`dGammaC_tbar`. -/
structure Loop (V : Type) where
  total : V
  T : V
  L : V
  R : V
  ctbar : V

variable {V S : Type}

/-- The body of the loop over `i = 3 …`, lines 326-435, up to the test. -/
def Loop.body [Add V] (E : Eqs V S) (s : Loop V) : Loop V :=
  let C := E.central s.L s.R
  let L := E.left s.T
  let R := E.right s.T
  let T := L + C + R
  let LR := E.reorder (L, R)
  ⟨s.total + T, T, LR.1, LR.2, s.ctbar + C⟩

/-- The test at the end of the body, lines 430-435. -/
def Loop.done (E : Eqs V S) (c : Cfg) (s : Loop V) : Bool :=
  below (E.absV s.T) c.tolAbs || below (E.relV s.T s.total) c.tolRel

/-- `for (int i = 3; i <= nloops_max; i++)`, line 325, with `k` iterations left. -/
def Loop.go [Add V] (E : Eqs V S) (c : Cfg) : Nat → Loop V → Loop V
  | 0, s => s
  | k + 1, s =>
    let s' := s.body E
    if s'.done E c then s' else Loop.go E c k s'

/-- Vertex part of one pass, lines 237-437: `dPsi.vertex` and `dGammaC_tbar`. -/
def vertexPass [Add V] [Zero V] (E : Eqs V S) (c : Cfg) (σ : S) : V × V :=
  let one := E.one σ
  if c.nloops ≥ 2 then
    let L := E.left one
    let R := E.right one
    let T := L + R
    let LR := E.reorder (L, R)
    let s : Loop V := ⟨one + T, T, LR.1, LR.2, 0⟩
    if c.nloops ≥ 3 then
      let r := Loop.go E c (c.nloops - 2).toNat s
      (r.total, r.ctbar)
    else (s.total, 0)
  else (one, 0)

/-- Variables of the self-energy iteration: `dPsi.vertex`, `dPsi.selfenergy`, the two deques, the counter, the
two measures of convergence (initialised in lines 214-216). -/
structure Iter (V S : Type) where
  vertex : V
  sigma : S
  evals : List (V × S)
  steps : List (V × S)
  counter : Nat
  abs : Option ℚ
  rel : Option ℚ

/-- One pass of the `do … while` loop, lines 221-541. -/
def Iter.pass [Add V] [Zero V] [Add S] [Sub S] (E : Eqs V S) (c : Cfg) (x : Iter V S) : Iter V S :=
  let v := vertexPass E c x.sigma
  if c.nloops ≥ 3 then
    if c.seCorr then
      let evals := x.evals ++ [(v.1, E.oneSE + E.corr v.2)]
      let steps := x.steps ++ [(v.1, x.sigma)]
      let σ := E.accel evals steps
      ⟨v.1, σ, evals, steps, x.counter + 1, E.absS (σ - x.sigma), E.relS (σ - x.sigma) σ⟩
    else ⟨v.1, x.sigma, x.evals, x.steps, x.counter + 1, x.abs, x.rel⟩
  else ⟨v.1, x.sigma, x.evals, x.steps, x.counter, x.abs, x.rel⟩

/-- The condition for another pass, line 541. -/
def Iter.again (c : Cfg) (x : Iter V S) : Bool :=
  c.nloops > 2 && decide (x.counter < c.nmax) && above x.abs c.seTolAbs && above x.rel c.seTolRel

theorem Iter.pass_counter [Add V] [Zero V] [Add S] [Sub S] (E : Eqs V S) (c : Cfg) (x : Iter V S)
    (h : c.nloops > 2) : (x.pass E c).counter = x.counter + 1 := by
  have : c.nloops ≥ 3 := by omega
  simp only [Iter.pass, this, if_true]
  split <;> rfl

/-- Repeating passes after the first one. -/
def Iter.go [Add V] [Zero V] [Add S] [Sub S] (E : Eqs V S) (c : Cfg) (x : Iter V S) : Iter V S :=
  if h : x.again c then Iter.go E c (x.pass E c) else x
termination_by c.nmax - x.counter
decreasing_by
  simp only [Iter.again, Bool.and_eq_true, decide_eq_true_eq] at h
  rw [Iter.pass_counter E c x (by omega)]
  omega

/-- `rhs_n_loop_flow`, lines 172-555: vertex and self-energy of the result and the number of self-energy
iterations added to the statistics (line 549).  `v0` stands for the contents of `dPsi.vertex` before the first
pass, which are overwritten. -/
def rhs [Add V] [Zero V] [Add S] [Sub S] (E : Eqs V S) (c : Cfg) : Res (Iter V S) :=
  if c.nloops ≥ 1 then
    let x : Iter V S := ⟨0, E.oneSE, [], [], 0, some (10 ^ 10), some 1⟩
    let y := x.pass E c
    if c.seCorr then .ok (y.go E c) else .ok y
  else .error .assertion

end Verif.MfRG
