import Verif.Multiloop.Props
import Mathlib.Analysis.SpecialFunctions.Sqrt
import Mathlib.Tactic.FieldSimp
import Mathlib.Tactic.Ring

/-! # C139: error of the multiloop flow at finite loop order -/
namespace Verif.Multiloop

open Keldysh (Ch)
open Filter

variable {V P S : Type} [NormedAddCommGroup V] [NormedSpace ℝ V] [NormedAddCommGroup P] [NormedSpace ℝ P]
  [NormedAddCommGroup S] [NormedSpace ℝ S]

theorem norm_others (r : Ch) (T : Ch → V) : ‖others r T‖ ≤ 2 * ‖T‖ := by
  have h (c : Ch) : ‖T c‖ ≤ ‖T‖ := norm_le_pi_norm T c
  cases r
  · show ‖T .p + T .t‖ ≤ _
    linarith [norm_add_le (T .p) (T .t), h .p, h .t]
  · show ‖T .a + T .t‖ ≤ _
    linarith [norm_add_le (T .a) (T .t), h .a, h .t]
  · show ‖T .a + T .p‖ ≤ _
    linarith [norm_add_le (T .a) (T .p), h .a, h .p]

theorem norm_bubble (f : V →L[ℝ] V →L[ℝ] V) (a b : V) : ‖f a b‖ ≤ ‖f‖ * ‖a‖ * ‖b‖ := f.le_opNorm₂ a b

/-- Size of one bubble with the full vertex. -/
def Coupling (k : Known V P S) (x : ℝ) : Prop := ∀ r, ‖k.pi r‖ * ‖k.full‖ ≤ x

theorem norm_sides (k : Known V P S) {x : ℝ} (hx : Coupling k x) (T : Ch → V) : ‖sides k T‖ ≤ 4 * x * ‖T‖ := by
  have x0 : 0 ≤ x := le_trans (by positivity) (hx .a)
  refine (pi_norm_le_iff_of_nonneg (by positivity)).2 fun r => ?_
  show ‖k.pi r (others r T) k.full + k.pi r k.full (others r T)‖ ≤ _
  have h1 := norm_bubble (k.pi r) (others r T) k.full
  have h2 := norm_bubble (k.pi r) k.full (others r T)
  have h3 := norm_others r T
  have h4 : ‖k.pi r‖ * ‖k.full‖ * ‖others r T‖ ≤ x * (2 * ‖T‖) :=
    mul_le_mul (hx r) h3 (norm_nonneg _) x0
  have h5 := norm_add_le (k.pi r (others r T) k.full) (k.pi r k.full (others r T))
  nlinarith

theorem norm_middle (k : Known V P S) (dpi : Ch → V →L[ℝ] V →L[ℝ] V) (h : Chain k.pi dpi) {x : ℝ} (hx : Coupling k x)
    (T : Ch → V) : ‖middle k T‖ ≤ 2 * x ^ 2 * ‖T‖ := by
  have x0 : 0 ≤ x := le_trans (by positivity) (hx .a)
  refine (pi_norm_le_iff_of_nonneg (by positivity)).2 fun r => ?_
  rw [middle, c139_central k dpi h]
  have h1 := norm_bubble (k.pi r) (others r T) k.full
  have h2 := norm_bubble (k.pi r) k.full (k.pi r (others r T) k.full)
  have h3 := norm_others r T
  have h4 : ‖k.pi r‖ * ‖k.full‖ * ‖others r T‖ ≤ x * (2 * ‖T‖) :=
    mul_le_mul (hx r) h3 (norm_nonneg _) x0
  have h5 : ‖k.pi r (others r T) k.full‖ ≤ x * (2 * ‖T‖) := by
    refine le_trans h1 (le_trans (le_of_eq ?_) h4)
    ring
  have h6 : ‖k.pi r‖ * ‖k.full‖ * ‖k.pi r (others r T) k.full‖ ≤ x * (x * (2 * ‖T‖)) :=
    mul_le_mul (hx r) h5 (norm_nonneg _) x0
  nlinarith

theorem sides_sub (k : Known V P S) (x y : Ch → V) : sides k (x - y) = sides k x - sides k y := by
  rw [eq_sub_iff_add_eq, ← sides_add, sub_add_cancel]

theorem middle_sub (k : Known V P S) (x y : Ch → V) : middle k (x - y) = middle k x - middle k y := by
  rw [eq_sub_iff_add_eq, ← middle_add, sub_add_cancel]

variable (E : MfRG.Eqs (Ch → V) S)

/-- The sum of the first loop orders approaches a solution of the equation for the sum geometrically. -/
theorem truncation (k : Known V P S) (σ : S) (dpi : Ch → V →L[ℝ] V →L[ℝ] V) (h : Chain k.pi dpi) (D : Ch → V)
    (hD : D = k.one σ + sides k D + middle k D) {x : ℝ} (hx : Coupling k x) (hq : 4 * x + 2 * x ^ 2 < 1) (n : ℕ) :
    ‖D - MfRG.sumTo (k.eqs E) σ n‖ ≤ Real.sqrt (4 * x + 2 * x ^ 2) ^ n * ‖D‖ := by
  have x0 : 0 ≤ x := le_trans (by positivity) (hx .a)
  set q := 4 * x + 2 * x ^ 2 with hqd
  set ρ := Real.sqrt q with hρ
  have q0 : 0 ≤ q := by positivity
  have ρ0 : 0 ≤ ρ := Real.sqrt_nonneg _
  have ρ2 : ρ ^ 2 = q := Real.sq_sqrt q0
  have ρ1 : ρ ≤ 1 := by
    exact Real.sqrt_le_one.2 hq.le
  have qρ : q ≤ ρ := by nlinarith
  have main : ∀ n, ‖D - MfRG.sumTo (k.eqs E) σ n‖ ≤ ρ ^ n * ‖D‖ ∧
      ‖D - MfRG.sumTo (k.eqs E) σ (n + 1)‖ ≤ ρ ^ (n + 1) * ‖D‖ := by
    intro n
    induction n with
    | zero =>
      refine ⟨by simp [sumTo_zero], ?_⟩
      rw [sumTo_one, pow_one]
      have e : D - k.one σ = sides k D + middle k D := by
        conv_lhs => rw [hD]
        abel
      rw [e]
      have h1 := norm_sides k hx D
      have h2 := norm_middle k _ h hx D
      have h3 := norm_add_le (sides k D) (middle k D)
      have h4 : q * ‖D‖ ≤ ρ * ‖D‖ := mul_le_mul_of_nonneg_right qρ (norm_nonneg _)
      nlinarith
    | succ n ih =>
      refine ⟨ih.2, ?_⟩
      have e : D - MfRG.sumTo (k.eqs E) σ (n + 2) = sides k (D - MfRG.sumTo (k.eqs E) σ (n + 1)) +
          middle k (D - MfRG.sumTo (k.eqs E) σ n) := by
        rw [sumTo_rec, sides_sub, middle_sub]
        conv_lhs => rw [hD]
        abel
      show ‖D - MfRG.sumTo (k.eqs E) σ (n + 2)‖ ≤ ρ ^ (n + 2) * ‖D‖
      rw [e]
      have h1 := norm_sides k hx (D - MfRG.sumTo (k.eqs E) σ (n + 1))
      have h2 := norm_middle k _ h hx (D - MfRG.sumTo (k.eqs E) σ n)
      have h3 := norm_add_le (sides k (D - MfRG.sumTo (k.eqs E) σ (n + 1))) (middle k (D - MfRG.sumTo (k.eqs E) σ n))
      have p0 : 0 ≤ ρ ^ n * ‖D‖ := by positivity
      have h4 : 4 * x * ‖D - MfRG.sumTo (k.eqs E) σ (n + 1)‖ ≤ 4 * x * (ρ ^ n * ‖D‖) := by
        refine mul_le_mul_of_nonneg_left (le_trans ih.2 ?_) (by positivity)
        rw [pow_succ]
        nlinarith
      have h5 : 2 * x ^ 2 * ‖D - MfRG.sumTo (k.eqs E) σ n‖ ≤ 2 * x ^ 2 * (ρ ^ n * ‖D‖) :=
        mul_le_mul_of_nonneg_left ih.1 (by positivity)
      have h6 : ρ ^ (n + 2) * ‖D‖ = q * (ρ ^ n * ‖D‖) := by rw [pow_add, ρ2]; ring
      rw [h6, hqd]
      linarith
  exact (main n).1

/-- C139, error for a given loop order: if bubbles with the full vertex are small (`x` with `4 x + 2 x² < 1`), the sum of
the first `n` loop orders differs from a solution of the differentiated parquet equations — the derivative of the
vertex along the flow, see `c139_family` — by at most a geometrically decreasing fraction of it. -/
theorem c139_error (k : Known V P S) (σ : S) (hp : Parquet k.pi k.bare k.red) (h : Chain k.pi (k.dpi (k.katanin σ)))
    (D : Ch → V) (hD : DerivedBSE k.pi (k.dpi (k.katanin σ)) k.bare k.red D) {x : ℝ} (hx : Coupling k x)
    (hq : 4 * x + 2 * x ^ 2 < 1) (n : ℕ) :
    ‖D - MfRG.sumTo (k.eqs E) σ n‖ ≤ Real.sqrt (4 * x + 2 * x ^ 2) ^ n * ‖D‖ := by
  rw [← c139_equivalent k σ hp h] at hD
  exact truncation E k σ _ h D hD hx hq n

/-- C139, error from the size of the last two contributions. -/
theorem c139_estimate (k : Known V P S) (σ : S) (hp : Parquet k.pi k.bare k.red) (h : Chain k.pi (k.dpi (k.katanin σ)))
    (D : Ch → V) (hD : DerivedBSE k.pi (k.dpi (k.katanin σ)) k.bare k.red D) {x : ℝ} (hx : Coupling k x)
    (hq : 4 * x + 2 * x ^ 2 < 1) (n : ℕ) :
    ‖D - MfRG.sumTo (k.eqs E) σ (n + 2)‖ ≤ ((4 * x + 2 * x ^ 2) * ‖MfRG.contribution (k.eqs E) σ (n + 2)‖ +
      2 * x ^ 2 * ‖MfRG.contribution (k.eqs E) σ (n + 1)‖) / (1 - (4 * x + 2 * x ^ 2)) := by
  rw [← c139_equivalent k σ hp h] at hD
  change D = k.one σ + sides k D + middle k D at hD
  have hr := c139_residual E k σ n
  set s := MfRG.sumTo (k.eqs E) σ (n + 2)
  set u := MfRG.contribution (k.eqs E) σ (n + 2)
  set v := MfRG.contribution (k.eqs E) σ (n + 1)
  have e : D - s = sides k (D - s) + middle k (D - s) + (sides k u + middle k u + middle k v) := by
    rw [← hr, sides_sub, middle_sub]
    conv_lhs => rw [hD]
    abel
  have h1 := norm_sides k hx (D - s)
  have h2 := norm_middle k _ h hx (D - s)
  have h3 := norm_sides k hx u
  have h4 := norm_middle k _ h hx u
  have h5 := norm_middle k _ h hx v
  have t1 := norm_add_le (sides k (D - s) + middle k (D - s)) (sides k u + middle k u + middle k v)
  have t2 := norm_add_le (sides k (D - s)) (middle k (D - s))
  have t3 := norm_add_le (sides k u + middle k u) (middle k v)
  have t4 := norm_add_le (sides k u) (middle k u)
  rw [← e] at t1
  rw [le_div_iff₀ (by linarith)]
  nlinarith

/-- C139: the vertex derivative that one pass of the right-hand side returns.  It is the sum of the loop orders up to the
order `m` at which the configuration stops; along a differentiable family of parquet solutions whose bubble
derivative is the one used, its distance from the derivative of the vertex is bounded by the loop order. -/
theorem c139_flow (k : Known V P S) (σ : S) (c : MfRG.Cfg) (hc : 1 ≤ c.nloops)
    (pi : ℝ → Ch → V →L[ℝ] V →L[ℝ] V) (red : ℝ → Ch → V) (dred : Ch → V) (Λ : ℝ)
    (hp : ∀ᶠ l in nhds Λ, Parquet (pi l) k.bare (red l)) (h : Chain k.pi (k.dpi (k.katanin σ)))
    (hpi : ∀ r, HasDerivAt (fun l => pi l r) (k.dpi (k.katanin σ) r) Λ)
    (hred : ∀ r, HasDerivAt (fun l => red l r) (dred r) Λ) (h1 : pi Λ = k.pi) (h2 : red Λ = k.red)
    {x : ℝ} (hx : Coupling k x) (hq : 4 * x + 2 * x ^ 2 < 1) :
    ∃ m, MfRG.StopsAt (k.eqs E) c σ m ∧
      ‖dred - (MfRG.vertexPass (k.eqs E) c σ).1‖ ≤ Real.sqrt (4 * x + 2 * x ^ 2) ^ m * ‖dred‖ := by
  obtain ⟨m, hm, he⟩ := MfRG.c67_pass (k.eqs E) c σ hc
  refine ⟨m, hm, ?_⟩
  rw [he]
  have hfam := c139_family pi _ k.bare red dred Λ hp hpi hred
  rw [h1, h2] at hfam
  refine c139_error E k σ ?_ h dred hfam hx hq m
  rw [← h1, ← h2]
  exact hp.self_of_nhds

/-! ### Counting bubbles -/

/-- The same data with every bubble multiplied by `t`. -/
noncomputable def weigh (t : ℝ) (k : Known V P S) : Known V P S :=
  { k with pi := fun r => t • k.pi r, dpi := fun p r => t • k.dpi p r }

theorem weigh_full (t : ℝ) (k : Known V P S) : (weigh t k).full = k.full := rfl

theorem sides_smul (k : Known V P S) (t : ℝ) (T : Ch → V) : sides k (t • T) = t • sides k T := by
  have ho (r : Ch) : others r (t • T) = t • others r T := by
    cases r <;> simp only [others, Pi.smul_apply, smul_add]
  funext r
  simp only [sides, Known.left, Known.right, Pi.add_apply, Pi.smul_apply, ho, map_smul, _root_.smul_apply]
  module

theorem middle_smul (k : Known V P S) (t : ℝ) (T : Ch → V) : middle k (t • T) = t • middle k T := by
  have ho (r : Ch) : others r (t • T) = t • others r T := by
    cases r <;> simp only [others, Pi.smul_apply, smul_add]
  funext r
  simp only [middle, Known.central, Known.centralLeft, Known.centralRight, Known.left, Known.right, Pi.smul_apply, ho,
    map_smul, _root_.smul_apply, map_add, map_sub]
  module

theorem sides_weigh (k : Known V P S) (t : ℝ) (T : Ch → V) : sides (weigh t k) T = t • sides k T := by
  funext r
  simp only [sides, Known.left, Known.right, Pi.add_apply, Pi.smul_apply, weigh_full]
  simp only [weigh, _root_.smul_apply]
  module

theorem middle_weigh (k : Known V P S) (t : ℝ) (T : Ch → V) : middle (weigh t k) T = t ^ 2 • middle k T := by
  funext r
  simp only [middle, Known.central, Known.centralLeft, Known.centralRight, Known.left, Known.right, Pi.smul_apply,
    weigh_full]
  simp only [weigh, _root_.smul_apply, map_smul, map_add, map_sub]
  module

/-- C139: the contribution of loop order `i` contains exactly `i` bubbles. -/
theorem c139_bubbles (k : Known V P S) (σ : S) (t : ℝ) (i : ℕ) :
    MfRG.contribution ((weigh t k).eqs E) σ (i + 1) = t ^ (i + 1) • MfRG.contribution (k.eqs E) σ (i + 1) := by
  have main : ∀ i, MfRG.contribution ((weigh t k).eqs E) σ (i + 1) = t ^ (i + 1) • MfRG.contribution (k.eqs E) σ (i + 1) ∧
      MfRG.contribution ((weigh t k).eqs E) σ (i + 2) = t ^ (i + 2) • MfRG.contribution (k.eqs E) σ (i + 2) := by
    intro i
    have one : MfRG.contribution ((weigh t k).eqs E) σ 1 = t • MfRG.contribution (k.eqs E) σ 1 := rfl
    induction i with
    | zero =>
      refine ⟨by simpa using one, ?_⟩
      have e (k : Known V P S) : MfRG.contribution (k.eqs E) σ 2 = sides k (MfRG.contribution (k.eqs E) σ 1) := rfl
      show MfRG.contribution ((weigh t k).eqs E) σ 2 = t ^ 2 • MfRG.contribution (k.eqs E) σ 2
      rw [e, e, one, sides_weigh, sides_smul, smul_smul, pow_two]
    | succ i ih =>
      refine ⟨ih.2, ?_⟩
      show MfRG.contribution ((weigh t k).eqs E) σ (i + 3) = t ^ (i + 3) • MfRG.contribution (k.eqs E) σ (i + 3)
      rw [contribution_rec, contribution_rec, ih.1, ih.2, sides_weigh, middle_weigh, sides_smul, middle_smul]
      module
  exact (main i).1

/-- C139, ladders: if only one channel has bubbles, every contribution beyond one loop vanishes and the one-loop flow is
exact. -/
theorem c139_single_channel (k : Known V P S) (σ : S) (hp : Parquet k.pi k.bare k.red)
    (h : Chain k.pi (k.dpi (k.katanin σ))) (c : Ch) (h1 : ∀ r, r ≠ c → k.pi r = 0)
    (h2 : ∀ r, r ≠ c → k.dpi (k.katanin σ) r = 0) :
    (∀ i, 2 ≤ i → MfRG.contribution (k.eqs E) σ i = 0) ∧
      DerivedBSE k.pi (k.dpi (k.katanin σ)) k.bare k.red (k.one σ) := by
  have o1 : others c (k.one σ) = 0 := by
    have (r : Ch) (hr : r ≠ c) : k.one σ r = 0 := by simp [Known.one, h2 r hr]
    cases c <;> simp [others, this]
  have s1 : sides k (k.one σ) = 0 := by
    funext r
    by_cases hr : r = c
    · subst hr
      simp [sides, Known.left, Known.right, o1]
    · simp [sides, Known.left, Known.right, h1 r hr]
  have m1 : middle k (k.one σ) = 0 := by
    funext r
    rw [middle, c139_central k _ h]
    by_cases hr : r = c
    · subst hr
      simp [o1]
    · simp [h1 r hr]
  have c2 : MfRG.contribution (k.eqs E) σ 2 = 0 := s1
  have c3 : MfRG.contribution (k.eqs E) σ 3 = 0 := by
    rw [contribution_rec, c2, sides_zero]
    show 0 + middle k (k.one σ) = 0
    rw [m1, zero_add]
  have main : ∀ i, MfRG.contribution (k.eqs E) σ (i + 2) = 0 ∧ MfRG.contribution (k.eqs E) σ (i + 3) = 0 := by
    intro i
    induction i with
    | zero => exact ⟨c2, c3⟩
    | succ i ih =>
      refine ⟨ih.2, ?_⟩
      rw [contribution_rec, ih.1, show i + 1 + 2 = i + 3 from rfl, ih.2, sides_zero, middle_zero, add_zero]
  refine ⟨fun i hi => ?_, ?_⟩
  · obtain ⟨j, rfl⟩ : ∃ j, i = j + 2 := ⟨i - 2, by omega⟩
    exact (main j).1
  · rw [← c139_equivalent k σ hp h]
    show _ = k.one σ + sides k (k.one σ) + middle k (k.one σ)
    rw [s1, m1, add_zero, add_zero]

end Verif.Multiloop
