import Verif.Order.Taylor
import Verif.Accuracy.Lemmas

/-! The derivatives of a Runge-Kutta step with respect to the step size. -/
namespace Verif.Order
open Filter Topology Verif.ODE

variable {V W : Type} [NormedAddCommGroup V] [NormedSpace ℝ V] [NormedAddCommGroup W] [NormedSpace ℝ W]

/-- The slope of stage `i` for the autonomous equation `x' = F x`. -/
noncomputable def stage (T : Tableau) (F : W → W) (x : W) (h : ℝ) (i : ℕ) : W :=
  F (x + h • ∑ j : Fin i, ((T.getA i j : ℚ) : ℝ) • stage T F x h j)
termination_by i
decreasing_by exact j.2

theorem stage_def (T : Tableau) (F : W → W) (x : W) (h : ℝ) (i : ℕ) :
    stage T F x h i = F (x + h • ∑ j ∈ Finset.range i, ((T.getA i j : ℚ) : ℝ) • stage T F x h j) := by
  rw [stage, Finset.sum_range fun j => ((T.getA i j : ℚ) : ℝ) • stage T F x h j]

theorem stage_zero (T : Tableau) (F : W → W) (x : W) (i : ℕ) : stage T F x 0 i = F x := by
  rw [stage_def, zero_smul, add_zero]

/-- The stages depend smoothly on the state and the step size. -/
theorem stage_smooth (T : Tableau) {F : W → W} {x : W} {n : WithTop ℕ∞} (hF : ContDiffAt ℝ n F x) (i : ℕ) :
    ContDiffAt ℝ n (fun z : W × ℝ => stage T F z.1 z.2 i) (x, 0) := by
  induction i using Nat.strong_induction_on with
  | _ i ih =>
    have : (fun z : W × ℝ => stage T F z.1 z.2 i) =
        fun z : W × ℝ => F (z.1 + z.2 • ∑ j ∈ Finset.range i, ((T.getA i j : ℚ) : ℝ) • stage T F z.1 z.2 j) := by
      funext z; exact stage_def T F z.1 z.2 i
    rw [this]
    refine ContDiffAt.comp (g := F) (f := fun z : W × ℝ => z.1 + z.2 • ∑ j ∈ Finset.range i, ((T.getA i j : ℚ) : ℝ) • stage T F z.1 z.2 j) (x, 0) ?_ ?_
    · simpa using hF
    · exact contDiffAt_fst.add (contDiffAt_snd.smul (ContDiffAt.sum fun j hj => (ih j (Finset.mem_range.1 hj)).const_smul _))

/-- Sum over the coefficients of stage `i`. -/
def row (T : Tableau) (f : ℕ → ℚ) (i : ℕ) : ℚ := ((List.range i).map fun j => T.getA i j * f j).sum

/-- Sum over the weights. -/
def total (T : Tableau) (b : List ℚ) (f : ℕ → ℚ) : ℚ := ((List.range T.stages).map fun i => b.getD i 0 * f i).sum

/-- The nodes. -/
def node (T : Tableau) : ℕ → ℚ := row T fun _ => 1

/-- The conditions on the coefficients for orders one to five, one for every rooted tree. -/
def Conditions (T : Tableau) (b : List ℚ) (p : ℕ) : Prop :=
  let c := node T
  let U := row T
  let B := total T b
  (1 ≤ p → B (fun _ => 1) = 1) ∧ (2 ≤ p → B c = 1 / 2) ∧ (3 ≤ p → B (fun i => c i ^ 2) = 1 / 3 ∧ B (U c) = 1 / 6) ∧
  (4 ≤ p → B (fun i => c i ^ 3) = 1 / 4 ∧ B (fun i => c i * U c i) = 1 / 8 ∧ B (U fun i => c i ^ 2) = 1 / 12 ∧ B (U (U c)) = 1 / 24) ∧
  (5 ≤ p → B (fun i => c i ^ 4) = 1 / 5 ∧ B (fun i => c i ^ 2 * U c i) = 1 / 10 ∧ B (fun i => c i * U (fun i => c i ^ 2) i) = 1 / 15 ∧
    B (fun i => c i * U (U c) i) = 1 / 30 ∧ B (fun i => U c i ^ 2) = 1 / 20 ∧ B (U fun i => c i ^ 3) = 1 / 20 ∧
    B (U fun i => c i * U c i) = 1 / 40 ∧ B (U (U fun i => c i ^ 2)) = 1 / 60 ∧ B (U (U (U c))) = 1 / 120)

instance (T : Tableau) (b : List ℚ) (p : ℕ) : Decidable (Conditions T b p) := by unfold Conditions; infer_instance

theorem conditions_high : Conditions cashKarp cashKarp.bHigh 5 ∧ Conditions rk4 rk4.bHigh 4 ∧ Conditions bogackiShampine bogackiShampine.bHigh 3 := by
  decide +kernel

theorem conditions_low : Conditions cashKarp cashKarp.bLow 4 ∧ Conditions bogackiShampine bogackiShampine.bLow 2 := by
  decide +kernel

theorem sum_eq (g : ℕ → ℚ) (n : ℕ) : ((List.range n).map g).sum = ∑ j ∈ Finset.range n, g j := by
  induction n with
  | zero => simp
  | succ n ih => rw [List.range_succ, List.map_append, List.sum_append, ih, Finset.sum_range_succ]; simp

theorem row_smul (T : Tableau) (f : ℕ → ℚ) (i : ℕ) (z : W) :
    ∑ j ∈ Finset.range i, ((T.getA i j : ℚ) : ℝ) • ((f j : ℚ) : ℝ) • z = ((row T f i : ℚ) : ℝ) • z := by
  simp only [smul_smul]
  rw [← Finset.sum_smul, row, sum_eq, Rat.cast_sum]
  simp only [Rat.cast_mul]

theorem total_smul (T : Tableau) (b : List ℚ) (f : ℕ → ℚ) (z : W) :
    ∑ i ∈ Finset.range T.stages, ((b.getD i 0 : ℚ) : ℝ) • ((f i : ℚ) : ℝ) • z = ((total T b f : ℚ) : ℝ) • z := by
  simp only [smul_smul]
  rw [← Finset.sum_smul, total, sum_eq, Rat.cast_sum]
  simp only [Rat.cast_mul]

/-- The state after a step with the weights `b`. -/
noncomputable def after (T : Tableau) (b : List ℚ) (F : W → W) (x : W) (h : ℝ) : W :=
  x + h • ∑ i ∈ Finset.range T.stages, ((b.getD i 0 : ℚ) : ℝ) • stage T F x h i

theorem after_smooth (T : Tableau) (b : List ℚ) {F : W → W} {x : W} {n : WithTop ℕ∞} (hF : ContDiffAt ℝ n F x) :
    ContDiffAt ℝ n (fun z : W × ℝ => after T b F z.1 z.2) (x, 0) :=
  contDiffAt_fst.add (contDiffAt_snd.smul (ContDiffAt.sum fun i _ => (stage_smooth T hF i).const_smul _))

section Jets
variable {F : W → W} {x : W} (hF : ContDiffAt ℝ 5 F x) {A1 : W → L1 W} {A2 : W → L2 W} {A3 : W → L3 W} {A4 : W → L4 W}
  (e1 : A1 = fderiv ℝ F) (e2 : A2 = fderiv ℝ A1) (e3 : A3 = fderiv ℝ A2) (e4 : A4 = fderiv ℝ A3)

include hF in
theorem stage_at (T : Tableau) (i : ℕ) : ContDiffAt ℝ ((5 : ℕ)) (fun h => stage T F x h i) 0 := section_smooth (e := fun z : W × ℝ => stage T F z.1 z.2 i) (stage_smooth T hF i)

include hF in
theorem sum_at (T : Tableau) (c : ℕ → ℝ) (m n : ℕ) (hn : n ≤ 5) :
    iteratedDeriv n (fun h => ∑ j ∈ Finset.range m, c j • stage T F x h j) 0 = ∑ j ∈ Finset.range m, c j • iteratedDeriv n (fun h => stage T F x h j) 0 := by
  rw [iteratedDeriv_fun_sum fun j _ => ((stage_at hF T j).of_le (by exact_mod_cast hn)).const_smul _]
  refine Finset.sum_congr rfl fun j _ => ?_
  exact iteratedDeriv_const_smul_field (c j) (fun h => stage T F x h j)

include hF in
theorem argument_at (T : Tableau) (c : ℕ → ℝ) (m n : ℕ) (hn : n < 5) :
    iteratedDeriv (n + 1) (fun h => x + h • ∑ j ∈ Finset.range m, c j • stage T F x h j) 0 =
      ((n : ℝ) + 1) • ∑ j ∈ Finset.range m, c j • iteratedDeriv n (fun h => stage T F x h j) 0 := by
  rw [times x (N := 5) (ContDiffAt.sum fun j _ => (stage_at hF T j).const_smul _) hn, sum_at hF T c m n hn.le]

theorem stage_fun (T : Tableau) (F : W → W) (x : W) (i : ℕ) :
    (fun h => stage T F x h i) = fun h => F (x + h • ∑ j ∈ Finset.range i, ((T.getA i j : ℚ) : ℝ) • stage T F x h j) := by
  funext h; exact stage_def T F x h i

include hF in
theorem argument_smooth (T : Tableau) (i : ℕ) :
    ContDiffAt ℝ 4 (fun h : ℝ => x + h • ∑ j ∈ Finset.range i, ((T.getA i j : ℚ) : ℝ) • stage T F x h j) 0 :=
  contDiffAt_const.add (contDiffAt_id.smul (ContDiffAt.sum fun j _ => (((stage_at hF T j).of_le (by exact_mod_cast (show 4 ≤ 5 by norm_num))).const_smul _)))

/-- The derivatives of the argument of stage `i` at zero. -/
noncomputable def arg (T : Tableau) (F : W → W) (x : W) (i n : ℕ) : W :=
  iteratedDeriv n (fun h : ℝ => x + h • ∑ j ∈ Finset.range i, ((T.getA i j : ℚ) : ℝ) • stage T F x h j) 0

include hF e1 e2 e3 e4 in
theorem stage_composition (T : Tableau) (i : ℕ) :
    iteratedDeriv 1 (fun h => stage T F x h i) 0 = A1 x (arg T F x i 1) ∧
    iteratedDeriv 2 (fun h => stage T F x h i) 0 = A2 x (arg T F x i 1) (arg T F x i 1) + A1 x (arg T F x i 2) ∧
    iteratedDeriv 3 (fun h => stage T F x h i) 0 = A3 x (arg T F x i 1) (arg T F x i 1) (arg T F x i 1) + A2 x (arg T F x i 2) (arg T F x i 1) +
      (2 : ℝ) • A2 x (arg T F x i 1) (arg T F x i 2) + A1 x (arg T F x i 3) ∧
    iteratedDeriv 4 (fun h => stage T F x h i) 0 = A4 x (arg T F x i 1) (arg T F x i 1) (arg T F x i 1) (arg T F x i 1) +
      A3 x (arg T F x i 2) (arg T F x i 1) (arg T F x i 1) + (2 : ℝ) • A3 x (arg T F x i 1) (arg T F x i 2) (arg T F x i 1) +
      (3 : ℝ) • A3 x (arg T F x i 1) (arg T F x i 1) (arg T F x i 2) + A2 x (arg T F x i 3) (arg T F x i 1) +
      (3 : ℝ) • A2 x (arg T F x i 2) (arg T F x i 2) + (3 : ℝ) • A2 x (arg T F x i 1) (arg T F x i 3) + A1 x (arg T F x i 4) := by
  rw [stage_fun]
  have z : x + (0 : ℝ) • ∑ j ∈ Finset.range i, ((T.getA i j : ℚ) : ℝ) • stage T F x 0 j = x := by simp
  have := composition (F := F) (g := fun h : ℝ => x + h • ∑ j ∈ Finset.range i, ((T.getA i j : ℚ) : ℝ) • stage T F x h j) (x := 0)
    (by rw [z]; exact hF.of_le (by norm_num)) (argument_smooth hF T i) e1 e2 e3 e4 (d := arg T F x i) fun n => rfl
  rw [z] at this
  exact this

include hF in
theorem arg_succ (T : Tableau) (i n : ℕ) (hn : n < 4) :
    arg T F x i (n + 1) = ((n : ℝ) + 1) • ∑ j ∈ Finset.range i, ((T.getA i j : ℚ) : ℝ) • iteratedDeriv n (fun h => stage T F x h j) 0 :=
  argument_at hF T _ i n (by omega)

include hF in
theorem arg_one (T : Tableau) (i : ℕ) : arg T F x i 1 = ((node T i : ℚ) : ℝ) • F x := by
  rw [arg_succ hF T i 0 (by omega)]
  simp only [iteratedDeriv_zero, stage_zero]
  have := row_smul T (fun _ => 1) i (F x)
  simp only [Rat.cast_one, one_smul] at this
  rw [this, node]
  simp

include hF e1 e2 e3 e4 in
theorem stage_one (T : Tableau) (i : ℕ) : iteratedDeriv 1 (fun h => stage T F x h i) 0 = ((node T i : ℚ) : ℝ) • A1 x (F x) := by
  rw [(stage_composition hF e1 e2 e3 e4 T i).1, arg_one hF, map_smul]

include hF e1 e2 e3 e4 in
theorem arg_two (T : Tableau) (i : ℕ) : arg T F x i 2 = ((2 * row T (node T) i : ℚ) : ℝ) • A1 x (F x) := by
  rw [arg_succ hF T i 1 (by omega)]
  simp only [stage_one hF e1 e2 e3 e4, row_smul]
  push_cast
  module

include hF e1 e2 e3 e4 in
theorem stage_two (T : Tableau) (i : ℕ) : iteratedDeriv 2 (fun h => stage T F x h i) 0 =
    ((node T i ^ 2 : ℚ) : ℝ) • A2 x (F x) (F x) + ((2 * row T (node T) i : ℚ) : ℝ) • A1 x (A1 x (F x)) := by
  rw [(stage_composition hF e1 e2 e3 e4 T i).2.1, arg_one hF, arg_two hF e1 e2 e3 e4]
  simp only [map_smul, smul_apply]
  push_cast
  module

theorem row_two (T : Tableau) (c : ℚ) (f : ℕ → ℚ) (i : ℕ) : row T (fun j => c * f j) i = c * row T f i := by
  simp only [row, sum_eq, Finset.mul_sum]
  exact Finset.sum_congr rfl fun j _ => by ring

include hF e1 e2 e3 e4 in
theorem arg_three (T : Tableau) (i : ℕ) : arg T F x i 3 =
    ((3 * row T (fun j => node T j ^ 2) i : ℚ) : ℝ) • A2 x (F x) (F x) + ((6 * row T (row T (node T)) i : ℚ) : ℝ) • A1 x (A1 x (F x)) := by
  rw [arg_succ hF T i 2 (by omega)]
  simp only [stage_two hF e1 e2 e3 e4, smul_add, Finset.sum_add_distrib]
  rw [row_smul T (fun j => node T j ^ 2), row_smul T (fun j => 2 * row T (node T) j), row_two]
  push_cast
  module

include hF e1 e2 e3 e4 in
theorem stage_three (T : Tableau) (i : ℕ) : iteratedDeriv 3 (fun h => stage T F x h i) 0 =
    ((node T i ^ 3 : ℚ) : ℝ) • A3 x (F x) (F x) (F x) + ((2 * (node T i * row T (node T) i) : ℚ) : ℝ) • A2 x (A1 x (F x)) (F x) +
      ((4 * (node T i * row T (node T) i) : ℚ) : ℝ) • A2 x (F x) (A1 x (F x)) + ((3 * row T (fun j => node T j ^ 2) i : ℚ) : ℝ) • A1 x (A2 x (F x) (F x)) +
      ((6 * row T (row T (node T)) i : ℚ) : ℝ) • A1 x (A1 x (A1 x (F x))) := by
  rw [(stage_composition hF e1 e2 e3 e4 T i).2.2.1, arg_one hF, arg_two hF e1 e2 e3 e4, arg_three hF e1 e2 e3 e4]
  simp only [map_smul, map_add, smul_apply]
  push_cast
  module

include hF e1 e2 e3 e4 in
theorem arg_four (T : Tableau) (i : ℕ) : arg T F x i 4 =
    ((4 * row T (fun j => node T j ^ 3) i : ℚ) : ℝ) • A3 x (F x) (F x) (F x) + ((8 * row T (fun j => node T j * row T (node T) j) i : ℚ) : ℝ) • A2 x (A1 x (F x)) (F x) +
      ((16 * row T (fun j => node T j * row T (node T) j) i : ℚ) : ℝ) • A2 x (F x) (A1 x (F x)) +
      ((12 * row T (row T fun j => node T j ^ 2) i : ℚ) : ℝ) • A1 x (A2 x (F x) (F x)) +
      ((24 * row T (row T (row T (node T))) i : ℚ) : ℝ) • A1 x (A1 x (A1 x (F x))) := by
  rw [arg_succ hF T i 3 (by omega)]
  simp only [stage_three hF e1 e2 e3 e4, smul_add, Finset.sum_add_distrib]
  rw [row_smul T (fun j => node T j ^ 3), row_smul T (fun j => 2 * (node T j * row T (node T) j)), row_smul T (fun j => 4 * (node T j * row T (node T) j)),
    row_smul T (fun j => 3 * row T (fun j => node T j ^ 2) j), row_smul T (fun j => 6 * row T (row T (node T)) j), row_two, row_two, row_two, row_two]
  push_cast
  module

include hF e1 e2 e3 e4 in
theorem stage_four (T : Tableau) (i : ℕ) : iteratedDeriv 4 (fun h => stage T F x h i) 0 =
    ((node T i ^ 4 : ℚ) : ℝ) • A4 x (F x) (F x) (F x) (F x) + ((2 * (node T i ^ 2 * row T (node T) i) : ℚ) : ℝ) • A3 x (A1 x (F x)) (F x) (F x) +
      ((4 * (node T i ^ 2 * row T (node T) i) : ℚ) : ℝ) • A3 x (F x) (A1 x (F x)) (F x) +
      ((6 * (node T i ^ 2 * row T (node T) i) : ℚ) : ℝ) • A3 x (F x) (F x) (A1 x (F x)) +
      ((3 * (node T i * row T (fun j => node T j ^ 2) i) : ℚ) : ℝ) • A2 x (A2 x (F x) (F x)) (F x) +
      ((6 * (node T i * row T (row T (node T)) i) : ℚ) : ℝ) • A2 x (A1 x (A1 x (F x))) (F x) +
      ((12 * row T (node T) i ^ 2 : ℚ) : ℝ) • A2 x (A1 x (F x)) (A1 x (F x)) +
      ((9 * (node T i * row T (fun j => node T j ^ 2) i) : ℚ) : ℝ) • A2 x (F x) (A2 x (F x) (F x)) +
      ((18 * (node T i * row T (row T (node T)) i) : ℚ) : ℝ) • A2 x (F x) (A1 x (A1 x (F x))) +
      ((4 * row T (fun j => node T j ^ 3) i : ℚ) : ℝ) • A1 x (A3 x (F x) (F x) (F x)) +
      ((8 * row T (fun j => node T j * row T (node T) j) i : ℚ) : ℝ) • A1 x (A2 x (A1 x (F x)) (F x)) +
      ((16 * row T (fun j => node T j * row T (node T) j) i : ℚ) : ℝ) • A1 x (A2 x (F x) (A1 x (F x))) +
      ((12 * row T (row T fun j => node T j ^ 2) i : ℚ) : ℝ) • A1 x (A1 x (A2 x (F x) (F x))) +
      ((24 * row T (row T (row T (node T))) i : ℚ) : ℝ) • A1 x (A1 x (A1 x (A1 x (F x)))) := by
  rw [(stage_composition hF e1 e2 e3 e4 T i).2.2.2, arg_one hF, arg_two hF e1 e2 e3 e4, arg_three hF e1 e2 e3 e4, arg_four hF e1 e2 e3 e4]
  simp only [map_smul, map_add, smul_apply, add_apply]
  push_cast
  module

theorem total_two (T : Tableau) (b : List ℚ) (c : ℚ) (f : ℕ → ℚ) : total T b (fun j => c * f j) = c * total T b f := by
  simp only [total, sum_eq, Finset.mul_sum]
  exact Finset.sum_congr rfl fun j _ => by ring

include hF in
theorem after_succ (T : Tableau) (b : List ℚ) (n : ℕ) (hn : n < 5) : iteratedDeriv (n + 1) (fun h => after T b F x h) 0 =
    ((n : ℝ) + 1) • ∑ i ∈ Finset.range T.stages, ((b.getD i 0 : ℚ) : ℝ) • iteratedDeriv n (fun h => stage T F x h i) 0 :=
  argument_at hF T _ _ n hn

/-- The derivatives of the flow. -/
theorem flow_succ {Y : ℝ → W} (hY : ∀ᶠ h in 𝓝 (0 : ℝ), HasDerivAt Y (F (Y h)) h) (n : ℕ) : iteratedDeriv (n + 1) Y 0 = iteratedDeriv n (fun h => F (Y h)) 0 := by
  rw [iteratedDeriv_succ']
  refine Filter.EventuallyEq.iteratedDeriv_eq n ?_
  filter_upwards [hY] with h hh
  exact hh.deriv

include hF in
/-- A step and the flow have the same derivatives at step size zero, up to the order of the tableau. -/
theorem same_derivatives {T : Tableau} {b : List ℚ} {p : ℕ} (hC : Conditions T b p) (hp : p ≤ 5) {Y : ℝ → W}
    (hY : ∀ᶠ h in 𝓝 (0 : ℝ), HasDerivAt Y (F (Y h)) h) (h0 : Y 0 = x) (hs : ContDiffAt ℝ 4 Y 0) {n : ℕ} (hn : n ≤ p) :
    iteratedDeriv n (fun h => after T b F x h) 0 = iteratedDeriv n Y 0 := by
  obtain ⟨A1, e1⟩ : ∃ A1 : W → L1 W, A1 = fderiv ℝ F := ⟨_, rfl⟩
  obtain ⟨A2, e2⟩ : ∃ A2 : W → L2 W, A2 = fderiv ℝ A1 := ⟨_, rfl⟩
  obtain ⟨A3, e3⟩ : ∃ A3 : W → L3 W, A3 = fderiv ℝ A2 := ⟨_, rfl⟩
  obtain ⟨A4, e4⟩ : ∃ A4 : W → L4 W, A4 = fderiv ℝ A3 := ⟨_, rfl⟩
  obtain ⟨q1, q2, q3, q4⟩ := composition (F := F) (g := Y) (x := 0) (by rw [h0]; exact hF.of_le (by norm_num)) hs e1 e2 e3 e4 (d := fun n => iteratedDeriv n Y 0) fun n => rfl
  simp only [h0] at q1 q2 q3 q4
  have y1 : iteratedDeriv 1 Y 0 = F x := by rw [flow_succ hY 0, iteratedDeriv_zero, h0]
  have y2 : iteratedDeriv 2 Y 0 = A1 x (F x) := by rw [flow_succ hY 1, q1, y1]
  have y3 : iteratedDeriv 3 Y 0 = A2 x (F x) (F x) + A1 x (A1 x (F x)) := by rw [flow_succ hY 2, q2, y1, y2]
  have y4 : iteratedDeriv 4 Y 0 = A3 x (F x) (F x) (F x) + A2 x (A1 x (F x)) (F x) + (2 : ℝ) • A2 x (F x) (A1 x (F x)) +
      A1 x (A2 x (F x) (F x) + A1 x (A1 x (F x))) := by rw [flow_succ hY 3, q3, y1, y2, y3]
  obtain ⟨k1, k2, k3, k4, k5⟩ := hC
  rcases n with _ | _ | _ | _ | _ | _ | n
  · simp [iteratedDeriv_zero, after, h0]
  · rw [after_succ hF T b 0 (by omega), y1]
    simp only [iteratedDeriv_zero, stage_zero]
    have := total_smul T b (fun _ => 1) (F x)
    simp only [Rat.cast_one, one_smul] at this
    rw [this, k1 hn]
    simp
  · rw [after_succ hF T b 1 (by omega), y2]
    simp only [stage_one hF e1 e2 e3 e4, total_smul]
    rw [k2 hn]
    push_cast
    module
  · rw [after_succ hF T b 2 (by omega), y3]
    simp only [stage_two hF e1 e2 e3 e4, smul_add, Finset.sum_add_distrib]
    rw [total_smul T b fun j => node T j ^ 2, total_smul T b fun j => 2 * row T (node T) j, total_two, (k3 hn).1, (k3 hn).2]
    push_cast
    module
  · rw [after_succ hF T b 3 (by omega), y4]
    obtain ⟨m1, m2, m3, m4⟩ := k4 hn
    simp only [stage_three hF e1 e2 e3 e4, smul_add, Finset.sum_add_distrib, map_add]
    rw [total_smul T b fun j => node T j ^ 3, total_smul T b fun j => 2 * (node T j * row T (node T) j), total_smul T b fun j => 4 * (node T j * row T (node T) j),
      total_smul T b fun j => 3 * row T (fun j => node T j ^ 2) j, total_smul T b fun j => 6 * row T (row T (node T)) j]
    simp only [total_two]
    rw [m1, m2, m3, m4]
    push_cast
    module
  · rw [after_succ hF T b 4 (by omega), flow_succ hY 4, q4, y1, y2, y3, y4]
    obtain ⟨m1, m2, m3, m4, m5, m6, m7, m8, m9⟩ := k5 hn
    simp only [stage_four hF e1 e2 e3 e4, smul_add, Finset.sum_add_distrib, map_add, map_smul, add_apply]
    rw [total_smul T b fun j => node T j ^ 4, total_smul T b fun j => 2 * (node T j ^ 2 * row T (node T) j), total_smul T b fun j => 4 * (node T j ^ 2 * row T (node T) j),
      total_smul T b fun j => 6 * (node T j ^ 2 * row T (node T) j), total_smul T b fun j => 3 * (node T j * row T (fun j => node T j ^ 2) j),
      total_smul T b fun j => 6 * (node T j * row T (row T (node T)) j), total_smul T b fun j => 12 * row T (node T) j ^ 2,
      total_smul T b fun j => 9 * (node T j * row T (fun j => node T j ^ 2) j), total_smul T b fun j => 18 * (node T j * row T (row T (node T)) j),
      total_smul T b fun j => 4 * row T (fun j => node T j ^ 3) j, total_smul T b fun j => 8 * row T (fun j => node T j * row T (node T) j) j,
      total_smul T b fun j => 16 * row T (fun j => node T j * row T (node T) j) j, total_smul T b fun j => 12 * row T (row T fun j => node T j ^ 2) j,
      total_smul T b fun j => 24 * row T (row T (row T (node T))) j]
    simp only [total_two]
    rw [m1, m2, m3, m4, m5, m6, m7, m8, m9]
    push_cast
    module
  · omega

end Jets

end Verif.Order
