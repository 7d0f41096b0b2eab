import Verif.Multiloop.Spec
import Verif.MfRG.Props
import Verif.Keldysh.Props
import Mathlib.Topology.Algebra.InfiniteSum.NatInt
import Mathlib.Analysis.Calculus.Deriv.Mul
import Mathlib.Analysis.Calculus.Deriv.Prod
import Mathlib.Analysis.Calculus.Deriv.Add
import Mathlib.Analysis.Calculus.FDeriv.Bilinear
import Mathlib.Tactic.Linarith
import Mathlib.Tactic.Abel
import Mathlib.Tactic.Module

/-! # C139: the multiloop flow is the derivative of the parquet equations -/
namespace Verif.Multiloop

open Keldysh (Ch)
open Filter

variable {V P S : Type} [NormedAddCommGroup V] [NormedSpace ℝ V] [NormedAddCommGroup P] [NormedSpace ℝ P]
  [NormedAddCommGroup S] [NormedSpace ℝ S]

theorem others_add (r : Ch) (x y : Ch → V) : others r (x + y) = others r x + others r y := by
  cases r <;> simp only [others, Pi.add_apply] <;> abel

theorem others_zero (r : Ch) : others r (0 : Ch → V) = 0 := by
  cases r <;> simp [others]

theorem total_eq (r : Ch) (x : Ch → V) : total x = others r x + x r := by
  cases r <;> simp only [others, total] <;> abel

/-- C139, the central part: for a vertex made of left and right parts the two insertions agree, the exchange of K2 and K2b
between them and the mean change nothing, and the result is the full vertex joined with the bubble, the differentiated
vertex irreducible in the channel, the bubble and the full vertex. -/
theorem c139_central (k : Known V P S) (dpi : Ch → V →L[ℝ] V →L[ℝ] V) (h : Chain k.pi dpi) (T : Ch → V) (r : Ch) :
    k.central (k.left T) (k.right T) r = k.pi r k.full (k.pi r (others r T) k.full) := by
  have e : k.centralLeft (k.right T) r = k.centralRight (k.left T) r := by
    simp only [Known.centralLeft, Known.centralRight, Known.left, Known.right, h.same]
  simp only [Known.central, e, sub_add_cancel]
  rw [← two_smul ℝ, smul_smul]
  norm_num
  rfl

/-- One channel: `g` reducible part, `I` irreducible part, `dI` its derivative. -/
theorem channel (p q : V →L[ℝ] V →L[ℝ] V) (same : ∀ a b c, p (p a b) c = p a (p b c))
    (right : ∀ a b c, q (p a b) c = p a (q b c)) {Γ I g dI D : V} (hΓ : Γ = I + g) (b1 : g = p I Γ) (b2 : g = p Γ I) :
    D = q Γ Γ + (p dI Γ + p Γ dI) + p Γ (p dI Γ) ↔ D = p dI Γ + q I Γ + p I (dI + D) := by
  have ex (f : V →L[ℝ] V →L[ℝ] V) (x : V) : f Γ x = f I x + f g x := by
    conv_lhs => rw [hΓ, map_add, _root_.add_apply]
  constructor
  · intro e
    have e1 : p I D = q g Γ + p g dI + p I (p dI Γ) + p g (p dI Γ) := by
      rw [e, map_add, map_add, map_add, ← right, ← same I Γ dI, ← same I Γ (p dI Γ), ← b1]
      abel
    rw [map_add, e1, e, ex q Γ, ex p dI, ex p (p dI Γ)]
    abel
  · intro e
    have e1 : p Γ D = p Γ (p dI Γ) + q g Γ + p g dI + p g D := by
      conv_lhs => rw [e]
      rw [map_add, map_add, map_add, map_add, ← right, ← same Γ I dI, ← same Γ I D, ← b2]
      abel
    rw [ex p D] at e1
    have e2 : p I D = p Γ (p dI Γ) + q g Γ + p g dI := add_right_cancel e1
    rw [map_add, e2] at e
    rw [e, ex q Γ, ex p dI]
    abel

/-- C139: for a vertex that solves the parquet equations, the sum over all loop orders (the solution `D` of the recursion)
is the derivative of the parquet equations, for the differentiated bubble that enters the one-loop term; and
conversely. -/
theorem c139_equivalent (k : Known V P S) (σ : S) (hp : Parquet k.pi k.bare k.red)
    (h : Chain k.pi (k.dpi (k.katanin σ))) (D : Ch → V) :
    D = k.one σ + (k.left D + k.right D) + k.central (k.left D) (k.right D) ↔
      DerivedBSE k.pi (k.dpi (k.katanin σ)) k.bare k.red D := by
  have key (r : Ch) := channel (k.pi r) (k.dpi (k.katanin σ) r) (h.same r) (h.right r) (Γ := k.full)
    (I := k.bare + others r k.red) (g := k.red r) (dI := others r D) (D := D r)
    (by rw [Known.full, total_eq r]; abel) (hp r).1 (hp r).2
  rw [funext_iff]
  refine forall_congr' fun r => ?_
  rw [Pi.add_apply, Pi.add_apply, Pi.add_apply, c139_central k _ h, total_eq r D]
  exact key r

/-! ### The sum over loop orders -/

theorem sides_add (k : Known V P S) (x y : Ch → V) : sides k (x + y) = sides k x + sides k y := by
  funext r
  simp only [sides, Known.left, Known.right, Pi.add_apply, others_add, map_add, _root_.add_apply]
  abel

theorem middle_add (k : Known V P S) (x y : Ch → V) : middle k (x + y) = middle k x + middle k y := by
  funext r
  simp only [middle, Known.central, Known.centralLeft, Known.centralRight, Known.left, Known.right, Pi.add_apply,
    others_add, map_add, map_sub, _root_.add_apply]
  module

theorem sides_zero (k : Known V P S) : sides k 0 = 0 := by
  have := sides_add k 0 0
  simpa using this

theorem middle_zero (k : Known V P S) : middle k 0 = 0 := by
  have := middle_add k 0 0
  simpa using this

theorem continuous_others (r : Ch) : Continuous (others r : (Ch → V) → V) := by
  cases r
  · show Continuous fun T : Ch → V => T .p + T .t
    fun_prop
  · show Continuous fun T : Ch → V => T .a + T .t
    fun_prop
  · show Continuous fun T : Ch → V => T .a + T .p
    fun_prop

theorem continuous_sides (k : Known V P S) : Continuous (sides k) := by
  refine continuous_pi fun r => ?_
  have := continuous_others (V := V) r
  show Continuous fun T => k.pi r (others r T) k.full + k.pi r k.full (others r T)
  fun_prop

theorem continuous_middle (k : Known V P S) : Continuous (middle k) := by
  refine continuous_pi fun r => ?_
  have := continuous_others (V := V) r
  simp only [middle, Known.central, Known.centralLeft, Known.centralRight, Known.left, Known.right]
  fun_prop

variable (E : MfRG.Eqs (Ch → V) S)

theorem orders_two (k : Known V P S) (σ : S) (i : ℕ) : (MfRG.orders (k.eqs E) σ (i + 1)).2 =
    (k.left (MfRG.orders (k.eqs E) σ i).1, k.right (MfRG.orders (k.eqs E) σ i).1) := by
  cases i <;> rfl

theorem contribution_rec (k : Known V P S) (σ : S) (i : ℕ) : MfRG.contribution (k.eqs E) σ (i + 3) =
    sides k (MfRG.contribution (k.eqs E) σ (i + 2)) + middle k (MfRG.contribution (k.eqs E) σ (i + 1)) := by
  have : MfRG.contribution (k.eqs E) σ (i + 3) = k.left (MfRG.orders (k.eqs E) σ (i + 1)).1 +
    k.central (MfRG.orders (k.eqs E) σ (i + 1)).2.1 (MfRG.orders (k.eqs E) σ (i + 1)).2.2 +
    k.right (MfRG.orders (k.eqs E) σ (i + 1)).1 := rfl
  rw [this, orders_two]
  simp only [sides, middle, MfRG.contribution, Nat.add_sub_cancel, show i + 2 - 1 = i + 1 from rfl]
  abel

theorem sumTo_zero (k : Known V P S) (σ : S) : MfRG.sumTo (k.eqs E) σ 0 = 0 := by
  simp [MfRG.sumTo]

theorem sumTo_one (k : Known V P S) (σ : S) : MfRG.sumTo (k.eqs E) σ 1 = k.one σ := by
  simp [MfRG.sumTo, MfRG.contribution, MfRG.orders, Known.eqs]

/-- The sum over loop orders as an iteration. -/
theorem sumTo_rec (k : Known V P S) (σ : S) (n : ℕ) : MfRG.sumTo (k.eqs E) σ (n + 2) =
    k.one σ + sides k (MfRG.sumTo (k.eqs E) σ (n + 1)) + middle k (MfRG.sumTo (k.eqs E) σ n) := by
  induction n with
  | zero =>
    rw [MfRG.sumTo_succ, sumTo_one, sumTo_zero, middle_zero]
    show _ + (k.left (k.one σ) + k.right (k.one σ)) = _
    rw [add_zero]
    rfl
  | succ n ih =>
    have e1 : MfRG.sumTo (k.eqs E) σ (n + 2) = MfRG.sumTo (k.eqs E) σ (n + 1) + MfRG.contribution (k.eqs E) σ (n + 2) :=
      MfRG.sumTo_succ _ _ _
    have e2 : MfRG.sumTo (k.eqs E) σ (n + 1) = MfRG.sumTo (k.eqs E) σ n + MfRG.contribution (k.eqs E) σ (n + 1) :=
      MfRG.sumTo_succ _ _ _
    have e3 : MfRG.sumTo (k.eqs E) σ (n + 3) = MfRG.sumTo (k.eqs E) σ (n + 2) + MfRG.contribution (k.eqs E) σ (n + 3) :=
      MfRG.sumTo_succ _ _ _
    have h1 := congrArg (sides k) e1
    have h2 := congrArg (middle k) e2
    rw [sides_add] at h1
    rw [middle_add] at h2
    show MfRG.sumTo (k.eqs E) σ (n + 3) = k.one σ + sides k (MfRG.sumTo (k.eqs E) σ (n + 2)) + _
    rw [e3, contribution_rec, h1, h2, ih]
    abel

/-- C139, truncation: the sum of the first `n` loop orders fulfils the closed equation up to terms made of the last two
contributions. -/
theorem c139_residual (k : Known V P S) (σ : S) (n : ℕ) :
    k.one σ + sides k (MfRG.sumTo (k.eqs E) σ (n + 2)) + middle k (MfRG.sumTo (k.eqs E) σ (n + 2)) -
      MfRG.sumTo (k.eqs E) σ (n + 2) =
    sides k (MfRG.contribution (k.eqs E) σ (n + 2)) + middle k (MfRG.contribution (k.eqs E) σ (n + 2)) +
      middle k (MfRG.contribution (k.eqs E) σ (n + 1)) := by
  have e : MfRG.sumTo (k.eqs E) σ (n + 2) = MfRG.sumTo (k.eqs E) σ n + MfRG.contribution (k.eqs E) σ (n + 1)
      + MfRG.contribution (k.eqs E) σ (n + 2) := by
    rw [MfRG.sumTo_succ, MfRG.sumTo_succ]
  have e2 := sumTo_rec E k σ n
  have e3 : MfRG.sumTo (k.eqs E) σ (n + 1) = MfRG.sumTo (k.eqs E) σ n + MfRG.contribution (k.eqs E) σ (n + 1) := by
    rw [MfRG.sumTo_succ]
  nth_rewrite 3 [e2]
  rw [e, e3]
  simp only [sides_add, middle_add]
  abel

/-- C139: whenever the sum over loop orders converges, its limit is the derivative of the parquet equations. -/
theorem c139_limit (k : Known V P S) (σ : S) (hp : Parquet k.pi k.bare k.red)
    (h : Chain k.pi (k.dpi (k.katanin σ))) (D : Ch → V)
    (hD : Tendsto (fun n => MfRG.sumTo (k.eqs E) σ n) atTop (nhds D)) :
    DerivedBSE k.pi (k.dpi (k.katanin σ)) k.bare k.red D := by
  rw [← c139_equivalent k σ hp h]
  have h2 := (tendsto_add_atTop_iff_nat 2).2 hD
  have h1 := (tendsto_add_atTop_iff_nat 1).2 hD
  have h3 : Tendsto (fun n => k.one σ + sides k (MfRG.sumTo (k.eqs E) σ (n + 1)) + middle k (MfRG.sumTo (k.eqs E) σ n))
      atTop (nhds (k.one σ + sides k D + middle k D)) :=
    ((tendsto_const_nhds).add (((continuous_sides k).tendsto D).comp h1)).add
      (((continuous_middle k).tendsto D).comp hD)
  simp only [sumTo_rec] at h2
  exact tendsto_nhds_unique h2 h3

/-- C139: along a differentiable family of solutions of the parquet equations (bubbles that depend on the flow parameter,
fully irreducible part constant) the derivative of the reducible parts fulfils the differentiated equations. -/
theorem c139_family (pi : ℝ → Ch → V →L[ℝ] V →L[ℝ] V) (dpi : Ch → V →L[ℝ] V →L[ℝ] V) (bare : V) (red : ℝ → Ch → V)
    (dred : Ch → V) (Λ : ℝ) (hp : ∀ᶠ l in nhds Λ, Parquet (pi l) bare (red l))
    (hpi : ∀ r, HasDerivAt (fun l => pi l r) (dpi r) Λ) (hred : ∀ r, HasDerivAt (fun l => red l r) (dred r) Λ) :
    DerivedBSE (pi Λ) dpi bare (red Λ) dred := by
  intro r
  have ht : HasDerivAt (fun l => bare + total (red l)) (total dred) Λ :=
    (((hred .a).add (hred .p)).add (hred .t)).const_add bare
  have ho : HasDerivAt (fun l => bare + others r (red l)) (others r dred) Λ := by
    cases r
    · exact ((hred .p).add (hred .t)).const_add bare
    · exact ((hred .a).add (hred .t)).const_add bare
    · exact ((hred .a).add (hred .p)).const_add bare
  have h1 := ((hpi r).clm_apply ho).clm_apply ht
  have h2 : HasDerivAt (fun l => red l r) _ Λ :=
    h1.congr_of_eventuallyEq (hp.mono fun l hl => (hl r).1)
  have := (hred r).unique h2
  rw [this]
  simp only [_root_.add_apply]
  abel

end Verif.Multiloop
