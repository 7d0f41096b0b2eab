import Verif.ODE.Model
import Verif.ODE.Spec
import Mathlib.Tactic.Linarith
import Mathlib.Tactic.NormNum
import Mathlib.Tactic.Module
import Mathlib.Tactic.FieldSimp
import Mathlib.Tactic.IntervalCases
import Mathlib.Algebra.Module.LinearMap.End

/-! C11, C12: the Runge-Kutta tableaux and one Runge-Kutta step. -/
namespace Verif.ODE

/-- All rooted trees with `n` vertices (fuel `m`). -/
private def trees : Nat → Nat → List RTree
  | 0, _ => []
  | _ + 1, 1 => [.vertex]
  | m + 1, n => (List.range n).flatMap fun k =>
      (trees m k).flatMap fun t => (trees m (n - k)).map fun s => .attach t s

private theorem order_pos (t : RTree) : 1 ≤ t.order := by
  induction t with
  | vertex => simp [RTree.order]
  | attach t s iht ihs => simp [RTree.order]; omega

private theorem mem_trees (t : RTree) (m : Nat) (hm : t.order ≤ m) : t ∈ trees m t.order := by
  induction t generalizing m with
  | vertex =>
    cases m with
    | zero => simp [RTree.order] at hm
    | succ m => simp [trees, RTree.order]
  | attach t s iht ihs =>
    have h1 := order_pos t
    have h2 := order_pos s
    simp only [RTree.order] at hm ⊢
    cases m with
    | zero => omega
    | succ m =>
      have hne : t.order + s.order ≠ 1 := by omega
      rw [trees]
      · rw [List.mem_flatMap]
        refine ⟨t.order, by simp; omega, ?_⟩
        rw [List.mem_flatMap]
        refine ⟨t, iht m (by omega), ?_⟩
        rw [List.mem_map]
        exact ⟨s, by rw [Nat.add_sub_cancel_left]; exact ihs m (by omega), rfl⟩
      · exact hne

private theorem hasOrder_of_check {a : Nat → Nat → ℚ} {b : Nat → ℚ} {n p : Nat}
    (h : ∀ k ∈ List.range (p + 1), ∀ t ∈ trees (p + 1) k, t.weight a b n = 1 / t.density) :
    HasOrder a b n p := by
  intro t ht
  exact h t.order (by simp; omega) t (mem_trees t (p + 1) (by omega))

/-- The coefficients the step loop uses: `get_a(stage, col)` for `col < stage`. -/
def explicitA (T : Tableau) (i j : Nat) : ℚ := if j < i then T.getA i j else 0

/-- C11: Cash-Karp, fifth-order weights. -/
theorem c11_cash_karp_order_five :
    HasOrder (explicitA cashKarp) (cashKarp.bHigh.getD · 0) cashKarp.stages 5 :=
  hasOrder_of_check (by decide +kernel)

/-- C11: Cash-Karp, embedded weights have order four ... -/
theorem c11_cash_karp_embedded_order_four :
    HasOrder (explicitA cashKarp) (cashKarp.bLow.getD · 0) cashKarp.stages 4 :=
  hasOrder_of_check (by decide +kernel)

/-- ... and not five; the main weights do not have order six. -/
theorem c11_cash_karp_orders_sharp :
    ¬ HasOrder (explicitA cashKarp) (cashKarp.bLow.getD · 0) cashKarp.stages 5 ∧
    ¬ HasOrder (explicitA cashKarp) (cashKarp.bHigh.getD · 0) cashKarp.stages 6 := by
  constructor
  · intro h
    have := h (.attach (.attach (.attach (.attach .vertex .vertex) .vertex) .vertex) .vertex) (by decide)
    revert this; decide +kernel
  · intro h
    have := h (.attach (.attach (.attach (.attach (.attach .vertex .vertex) .vertex) .vertex) .vertex) .vertex)
      (by decide)
    revert this; decide +kernel

/-- C11: classical Runge-Kutta has order four and not five; its two weight rows agree. -/
theorem c11_rk4_order_four :
    HasOrder (explicitA rk4) (rk4.bHigh.getD · 0) rk4.stages 4 ∧ rk4.bLow = rk4.bHigh ∧
    ¬ HasOrder (explicitA rk4) (rk4.bHigh.getD · 0) rk4.stages 5 := by
  refine ⟨hasOrder_of_check (by decide +kernel), rfl, ?_⟩
  intro h
  have := h (.attach (.attach (.attach (.attach .vertex .vertex) .vertex) .vertex) .vertex) (by decide)
  revert this; decide +kernel

/-- C11: Bogacki-Shampine has order three with an embedded second-order rule, both sharp. -/
theorem c11_bogacki_shampine_orders :
    HasOrder (explicitA bogackiShampine) (bogackiShampine.bHigh.getD · 0) bogackiShampine.stages 3 ∧
    HasOrder (explicitA bogackiShampine) (bogackiShampine.bLow.getD · 0) bogackiShampine.stages 2 ∧
    ¬ HasOrder (explicitA bogackiShampine) (bogackiShampine.bHigh.getD · 0) bogackiShampine.stages 4 ∧
    ¬ HasOrder (explicitA bogackiShampine) (bogackiShampine.bLow.getD · 0) bogackiShampine.stages 3 := by
  refine ⟨hasOrder_of_check (by decide +kernel), hasOrder_of_check (by decide +kernel), ?_, ?_⟩
  · intro h
    have := h (.attach (.attach (.attach .vertex .vertex) .vertex) .vertex) (by decide)
    revert this; decide +kernel
  · intro h
    have := h (.attach (.attach .vertex .vertex) .vertex) (by decide)
    revert this; decide +kernel

/-- C11: nodes are the row sums, and the coefficients on and above the diagonal vanish (except in the last
column, which is not stored). -/
theorem c11_nodes_and_explicit :
    ∀ T ∈ [cashKarp, rk4, bogackiShampine], ∀ i ∈ List.range T.stages,
      T.getNode i = ((List.range i).map (T.getA i)).sum ∧
      ∀ j ∈ List.range (T.stages - 1), i ≤ j → T.getA i j = 0 := by
  decide +kernel

/-- The accessor's promise that the last column is zero is false: the guard compares with the number of
stages instead of the last column, so it returns the first coefficient of the next row.  (The stage loop only
asks for columns below the diagonal.) -/
theorem c11_last_column_refuted :
    ¬ ∀ T ∈ [cashKarp, rk4, bogackiShampine], ∀ i < T.stages, T.getA i (T.stages - 1) = 0 := by
  intro h
  have := h cashKarp (by simp) 1 (by decide)
  revert this; decide +kernel

/-- The condition is not vacuous: there are 14 different plane trees with five vertices. -/
example : (trees 6 5).length = 14 := by decide +kernel

section Step

variable {K Y : Type} [Field K] [CharZero K] [AddCommGroup Y] [Module K Y]

/-- The trivial parametrisation `λ = t`. -/
def linearParam (K : Type) [Field K] : FlowParam K := ⟨id, fun _ => 1⟩

/-- C12: for a linear flow `y' = A y` one Cash-Karp step of size `h` is the Taylor polynomial of the exact
flow through fifth order plus a fixed multiple of `h⁶ A⁶ y`. -/
theorem c12_linear_flow (A : Y →ₗ[K] Y) (y : Y) (t h : K) :
    (rkStep cashKarp (linearParam K) (fun y _ => A y) y (A y) t h).1
      = y + h • A y + (h ^ 2 / 2) • A (A y) + (h ^ 3 / 6) • A (A (A y))
        + (h ^ 4 / 24) • A (A (A (A y))) + (h ^ 5 / 120) • A (A (A (A (A y))))
        + (h ^ 6 / 800) • A (A (A (A (A (A y))))) := by
  simp [rkStep, slopes, stageLoop, stageState, combine, linearParam, Tableau.getA, Tableau.getNode,
    List.range_succ, cashKarp]
  module

/-- C12: same for the classical fourth-order method. -/
theorem c12_linear_flow_rk4 (A : Y →ₗ[K] Y) (y : Y) (t h : K) :
    (rkStep rk4 (linearParam K) (fun y _ => A y) y (A y) t h).1
      = y + h • A y + (h ^ 2 / 2) • A (A y) + (h ^ 3 / 6) • A (A (A y))
        + (h ^ 4 / 24) • A (A (A (A y))) := by
  simp [rkStep, slopes, stageLoop, stageState, combine, linearParam, Tableau.getA, Tableau.getNode,
    List.range_succ, rk4]
  module

/-- C12: a right-hand side that is a polynomial of degree at most four in the flow parameter is integrated
exactly. -/
theorem c12_polynomial_exact (v0 v1 v2 v3 v4 y : Y) (t h : K) :
    (rkStep cashKarp (linearParam K)
      (fun _ s => v0 + s • v1 + s ^ 2 • v2 + s ^ 3 • v3 + s ^ 4 • v4) y
      (v0 + t • v1 + t ^ 2 • v2 + t ^ 3 • v3 + t ^ 4 • v4) t h).1
      = y + h • v0 + (((t + h) ^ 2 - t ^ 2) / 2) • v1 + (((t + h) ^ 3 - t ^ 3) / 3) • v2
        + (((t + h) ^ 4 - t ^ 4) / 4) • v3 + (((t + h) ^ 5 - t ^ 5) / 5) • v4 := by
  simp [rkStep, slopes, stageLoop, stageState, combine, linearParam, Tableau.getA, Tableau.getNode,
    List.range_succ, cashKarp]
  module

/-- C12: the reported error vector is the difference between the fifth-order and the embedded
fourth-order solution. -/
theorem c12_error_estimate (p : FlowParam K) (rhs : Y → K → Y) (y dydx : Y) (t h : K) :
    (rkStep cashKarp p rhs y dydx t h).2
      = combine cashKarp.bHigh y h (slopes cashKarp p rhs y dydx t h)
        - combine cashKarp.bLow y h (slopes cashKarp p rhs y dydx t h) := by
  have hlen : (slopes cashKarp p rhs y dydx t h).length = 6 := by
    simp [slopes, stageLoop, cashKarp]
  simp only [rkStep, errorVec, combine, hlen]
  simp [List.range_succ, List.range', Tableau.getErrorB]
  module

/-- C12: with a parametrisation `λ(t)` the step integrates the transformed equation
`dy/dt = λ'(t) f(y, λ(t))`. -/
theorem c12_reparametrised (T : Tableau) (p : FlowParam K) (rhs : Y → K → Y) (y : Y) (t h : K) :
    rkStep T p rhs y (rhs y (p.lam t)) t h
      = rkStep T (linearParam K) (fun y s => p.dlam s • rhs y (p.lam s)) y
          (p.dlam t • rhs y (p.lam t)) t h := by
  have key : ∀ n k, stageLoop T p rhs y t h n k
      = stageLoop T (linearParam K) (fun y s => p.dlam s • rhs y (p.lam s)) y t h n k := by
    intro n
    induction n with
    | zero => intro k; rfl
    | succ n ih => intro k; simp only [stageLoop, linearParam, id, one_smul]; exact ih _
  simp only [rkStep, slopes, key]
  simp [linearParam]

/-- Non-trivial instance: `y' = y`, `y = 1`, `h = 1` over the rationals. -/
example : (rkStep cashKarp (linearParam ℚ) (fun y _ => y) (1 : ℚ) 1 0 1).1
    = 1 + 1 + 1/2 + 1/6 + 1/24 + 1/120 + 1/800 := by decide +kernel

end Step

end Verif.ODE
