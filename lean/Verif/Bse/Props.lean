import Verif.Bse.Model
import Verif.Parquet.Props
import Verif.Multiloop.PropsError
import Mathlib.Topology.MetricSpace.Contracting
import Mathlib.Analysis.Quaternion
import Mathlib.Analysis.Normed.Operator.Mul
import Mathlib.Tactic.NormNum

/-! # C144: the Bethe–Salpeter step and its fixed points -/
namespace Verif.Bse

open Keldysh (Ch)
open Multiloop (others total Parquet Chain norm_others norm_bubble total_eq)
open Filter

variable {V : Type} [NormedAddCommGroup V] [NormedSpace ℝ V]

/-- The loop over the characters of `"apt"` writes every channel once. -/
theorem overChannels_eq (f T : Ch → V) : overChannels f T = f := by
  funext r
  cases r <;> simp [overChannels, bubbleInto, channelOf]

/-- **C144** (step).  Each reducible part becomes the mean of the bubble with the irreducible vertex on the left and the
one with the irreducible vertex on the right, whatever the result vertices held before. -/
theorem c144_step (s : Step V) (L0 R0 red : Ch → V) (r : Ch) :
    (computeBSE s false L0 R0 red).left r = s.pi r (s.bare + others r red) (s.bare + total red) ∧
    (computeBSE s false L0 R0 red).right r = s.pi r (s.bare + total red) (s.bare + others r red) ∧
    (computeBSE s false L0 R0 red).mean r = (1 / 2 : ℝ) • (s.pi r (s.bare + others r red) (s.bare + total red) +
      s.pi r (s.bare + total red) (s.bare + others r red)) := by
  simp only [computeBSE, overChannels_eq]
  refine ⟨rfl, rfl, ?_⟩
  norm_num

/-- **C144** (solutions).  A solution of the parquet equations is not changed by the step, with or without the exchange of
components between the left and the right version. -/
theorem c144_solution (s : Step V) (sbe : Bool) (red : Ch → V) (h : Parquet s.pi s.bare red) : iterate s sbe red = red := by
  have hh : ∀ v : V, (0.5 : ℝ) • (v + v) = v := fun v => by
    rw [← two_smul ℝ, smul_smul]; norm_num
  have h1 : (fun r => s.pi r (s.bare + others r red) (s.bare + total red)) = red := funext fun r => (h r).1.symm
  have h2 : (fun r => s.pi r (s.bare + total red) (s.bare + others r red)) = red := funext fun r => (h r).2.symm
  funext r
  simp only [iterate, computeBSE, overChannels_eq, h1, h2]
  cases sbe
  · exact hh _
  · simp only [if_true, sub_add_cancel]
    exact hh _

/-- One channel of the symmetrised equation. -/
theorem symmetrised (p : V →L[ℝ] V →L[ℝ] V) (same : ∀ a b c, p (p a b) c = p a (p b c)) {I Γ g : V} (hΓ : Γ = I + g)
    (hg : g = (1 / 2 : ℝ) • (p I Γ + p Γ I)) : (2 : ℝ) • (g - p I Γ) = p (g - p I Γ) I + p I (g - p I Γ) := by
  have e2 : (2 : ℝ) • g = p I Γ + p Γ I := by
    rw [show p I Γ + p Γ I = (2 : ℝ) • ((1 / 2 : ℝ) • (p I Γ + p Γ I)) by rw [smul_smul]; norm_num, ← hg]
  have eI : p I Γ = p I I + p I g := by rw [hΓ, map_add]
  have eG : p Γ I = p I I + p g I := by rw [hΓ, map_add, _root_.add_apply]
  have k1 : p I (p g I) = p (p I g) I := (same I g I).symm
  have k2 : p I (p I I) = p (p I I) I := (same I I I).symm
  have h3 : p I ((2 : ℝ) • g) = p I (p I Γ) + p (p I Γ) I := by
    rw [e2, map_add, ← same I Γ I]
  rw [map_smul] at h3
  -- twice the defect in terms of `p I g`, `p g I`
  have h4 : (2 : ℝ) • (g - p I Γ) = p g I - p I g := by
    rw [smul_sub, e2, two_smul, eI, eG]
    abel
  rw [h4, map_sub, map_sub, _root_.sub_apply]
  rw [two_smul] at h3
  have h5 : p I g + p I g - p I (p I Γ) - p (p I Γ) I = 0 := by rw [h3]; abel
  calc p g I - p I g = p g I - p I g + 0 := by rw [add_zero]
    _ = p g I - p I g + (p I g + p I g - p I (p I Γ) - p (p I Γ) I) := by rw [h5]
    _ = _ := by abel

/-- **C144** (fixed points, part).  If the step does not change a vertex and a bubble with the irreducible vertex is smaller
than one, the vertex solves the parquet equations, from both sides. -/
theorem c144_fixed_partial (s : Step V) (red : Ch → V) (hc : ∀ r a b c, s.pi r (s.pi r a b) c = s.pi r a (s.pi r b c))
    (hfix : iterate s false red = red) (hx : ∀ r, ‖s.pi r‖ * ‖s.bare + others r red‖ < 1) : Parquet s.pi s.bare red := by
  intro r
  have hg : red r = (1 / 2 : ℝ) • (s.pi r (s.bare + others r red) (s.bare + total red) +
      s.pi r (s.bare + total red) (s.bare + others r red)) :=
    (congrFun hfix r).symm.trans (c144_step s 0 0 red r).2.2
  have hΓ : s.bare + total red = (s.bare + others r red) + red r := by rw [total_eq r]; abel
  have hs := symmetrised (s.pi r) (hc r) hΓ hg
  set I := s.bare + others r red with hI
  set ρ := red r - s.pi r I (s.bare + total red) with hρ
  have hn : ‖(2 : ℝ) • ρ‖ ≤ 2 * (‖s.pi r‖ * ‖I‖) * ‖ρ‖ := by
    rw [hs]
    refine (norm_add_le _ _).trans ?_
    have h1 := norm_bubble (s.pi r) ρ I
    have h2 := norm_bubble (s.pi r) I ρ
    nlinarith
  rw [norm_smul, Real.norm_of_nonneg (by norm_num : (0:ℝ) ≤ 2)] at hn
  have hz : ρ = 0 := by
    by_contra hne
    have hpos : 0 < ‖ρ‖ := norm_pos_iff.2 hne
    have := hx r
    nlinarith
  have hl : red r = s.pi r I (s.bare + total red) := sub_eq_zero.1 hz
  refine ⟨hl, ?_⟩
  have h2 : (2 : ℝ) • red r = red r + s.pi r (s.bare + total red) I := by
    conv_lhs => rw [hg]
    rw [smul_smul, show (2 : ℝ) * (1 / 2) = 1 by norm_num, one_smul, ← hl]
  rw [two_smul] at h2
  exact add_left_cancel h2

section Witness
open Quaternion

variable {A : Type} [NormedRing A] [NormedAlgebra ℝ A]

/-- A step in an algebra: the bubble in channel `a` is the product, the other channels are empty. -/
noncomputable def algStep (u : A) : Step A :=
  ⟨u, fun r => match r with | .a => ContinuousLinearMap.mul ℝ A | _ => 0, 0, 0⟩

/-- Reducible parts in channel `a` only. -/
def onlyA (g : A) : Ch → A
  | .a => g
  | _ => 0

theorem algStep_left (u g : A) :
    (algStep u).pi .a ((algStep u).bare + others .a (onlyA g)) ((algStep u).bare + total (onlyA g)) = u * (u + g) := by
  simp [algStep, onlyA, others, total]

theorem algStep_right (u g : A) :
    (algStep u).pi .a ((algStep u).bare + total (onlyA g)) ((algStep u).bare + others .a (onlyA g)) = (u + g) * u := by
  simp [algStep, onlyA, others, total, add_mul]

theorem algStep_fixed (u g : A) (h : (1 / 2 : ℝ) • (u * (u + g) + (u + g) * u) = g) (sbe : Bool) :
    iterate (algStep u) sbe (onlyA g) = onlyA g := by
  have hm : ∀ r, (1 / 2 : ℝ) • ((algStep u).pi r ((algStep u).bare + others r (onlyA g)) ((algStep u).bare + total (onlyA g)) +
      (algStep u).pi r ((algStep u).bare + total (onlyA g)) ((algStep u).bare + others r (onlyA g))) = onlyA g r := by
    intro r
    cases r
    · rw [algStep_left, algStep_right]
      exact h
    · simp [algStep, onlyA]
    · simp [algStep, onlyA]
  funext r
  rw [← hm r, iterate, ← (c144_step (algStep u) 0 0 (onlyA g) r).2.2]
  cases sbe
  · rfl
  · simp [computeBSE, algStep, overChannels_eq]

theorem quaternion_pair_aux (u g : ℍ[ℝ]) (a0 : u.re = 1) (a1 : u.imI = -1) (a2 : u.imJ = 0) (a3 : u.imK = 0)
    (b0 : g.re = -2) (b1 : g.imI = 0) (b2 : g.imJ = 0) (b3 : g.imK = -1) :
    (1 / 2 : ℝ) • (u * (u + g) + (u + g) * u) = g ∧ u * (u + g) ≠ (u + g) * u := by
  constructor
  · ext <;> simp [Quaternion.re_mul, Quaternion.imI_mul, Quaternion.imJ_mul, Quaternion.imK_mul, a0, a1, a2, a3, b0, b1, b2, b3]
      <;> norm_num
  · intro h
    have := congrArg (fun q : ℍ[ℝ] => q.imJ) h
    simp [Quaternion.imJ_mul, a0, a1, a2, a3, b0, b1, b2, b3] at this
    norm_num at this

/-- The two elements of the witness. -/
theorem quaternion_pair : ∃ u g : ℍ[ℝ], (1 / 2 : ℝ) • (u * (u + g) + (u + g) * u) = g ∧ u * (u + g) ≠ (u + g) * u :=
  ⟨⟨1, -1, 0, 0⟩, ⟨-2, 0, 0, -1⟩, quaternion_pair_aux _ _ rfl rfl rfl rfl rfl rfl rfl rfl⟩

/-- **C144** is false without a restriction: the step averages the two versions of the equation, and the average has fixed
points that solve neither version.  Here the vertices are quaternions (a subalgebra of the complex two-by-two matrices),
the bubble in channel `a` is the product and the other channels are empty. -/
theorem c144_fixed_refuted : ∃ (s : Step ℍ[ℝ]) (red : Ch → ℍ[ℝ]),
    (∀ r a b c, s.pi r (s.pi r a b) c = s.pi r a (s.pi r b c)) ∧ (∀ sbe, iterate s sbe red = red) ∧
    ¬ Parquet s.pi s.bare red ∧ red .a ≠ s.pi .a (s.bare + others .a red) (s.bare + total red) ∧
      red .a ≠ s.pi .a (s.bare + total red) (s.bare + others .a red) := by
  obtain ⟨u, g, h, hne⟩ := quaternion_pair
  have h1 : g ≠ u * (u + g) := by
    intro he
    apply hne
    have h2 : u * (u + g) + (u + g) * u = (2 : ℝ) • g := by
      rw [← h, smul_smul, h]
      norm_num
    have h3 : (u + g) * u = g := by
      rw [← he, two_smul] at h2
      exact add_left_cancel h2
    rw [h3, ← he]
  have h1' : g ≠ (u + g) * u := by
    intro he
    apply hne
    have h2 : u * (u + g) + (u + g) * u = (2 : ℝ) • g := by
      rw [← h, smul_smul, h]
      norm_num
    have h3 : u * (u + g) = g := by
      rw [← he, two_smul] at h2
      exact add_right_cancel h2
    rw [h3, ← he]
  refine ⟨algStep u, onlyA g, ?_, algStep_fixed u g h, fun hp => ?_, ?_, ?_⟩
  · intro r a b c
    cases r <;> simp [algStep, mul_assoc]
  · have := (hp .a).1
    rw [algStep_left] at this
    exact h1 this
  · rw [algStep_left]
    exact h1
  · rw [algStep_right]
    exact h1'

end Witness

/-! ### Weak coupling -/

/-- Bounds under which the step is a contraction on the vertices with reducible parts of size at most `R`. -/
structure Weak (s : Step V) (u x R : ℝ) : Prop where
  bare : ‖s.bare‖ ≤ u
  bubble : ∀ r, ‖s.pi r‖ ≤ x
  pos : 0 ≤ R
  into : x * (u + 2 * R) * (u + 3 * R) ≤ R
  small : x * (5 * u + 12 * R) < 1

theorem norm_total (T : Ch → V) : ‖total T‖ ≤ 3 * ‖T‖ := by
  have := total_eq .a T
  rw [this]
  refine (norm_add_le _ _).trans ?_
  have h1 := norm_others .a T
  have h2 := norm_le_pi_norm T .a
  linarith

theorem others_sub (r : Ch) (x y : Ch → V) : others r (x - y) = others r x - others r y := by
  cases r <;> simp only [others, Pi.sub_apply] <;> abel

theorem total_sub (x y : Ch → V) : total (x - y) = total x - total y := by
  simp only [total, Pi.sub_apply]
  abel

theorem bubble_le (f : V →L[ℝ] V →L[ℝ] V) {u v : V} {c a b : ℝ} (hf : ‖f‖ ≤ c) (hu : ‖u‖ ≤ a) (hv : ‖v‖ ≤ b) :
    ‖f u v‖ ≤ c * a * b := by
  have hc0 : 0 ≤ c := le_trans (by positivity) hf
  have ha0 : 0 ≤ a := (norm_nonneg _).trans hu
  refine (norm_bubble f u v).trans ?_
  gcongr

/-- **C144** (weak coupling).  The step keeps the reducible parts below the bound and reduces the distance of two vertices by
a fixed factor. -/
theorem c144_contraction (s : Step V) {u x R : ℝ} (h : Weak s u x R) (T T' : Ch → V) (hT : ‖T‖ ≤ R) (hT' : ‖T'‖ ≤ R) :
    ‖iterate s false T‖ ≤ R ∧ ‖iterate s false T - iterate s false T'‖ ≤ x * (5 * u + 12 * R) * ‖T - T'‖ := by
  have hu : 0 ≤ u := (norm_nonneg _).trans h.bare
  have hx : 0 ≤ x := le_trans (by positivity) (h.bubble .a)
  have hR := h.pos
  have hI : ∀ (T : Ch → V), ‖T‖ ≤ R → ∀ r, ‖s.bare + others r T‖ ≤ u + 2 * R := fun T hT r =>
    (norm_add_le _ _).trans (add_le_add h.bare ((norm_others r T).trans (by linarith)))
  have hG : ∀ (T : Ch → V), ‖T‖ ≤ R → ‖s.bare + total T‖ ≤ u + 3 * R := fun T hT =>
    (norm_add_le _ _).trans (add_le_add h.bare ((norm_total T).trans (by linarith)))
  constructor
  · refine (pi_norm_le_iff_of_nonneg hR).2 fun r => ?_
    rw [iterate, (c144_step s 0 0 T r).2.2, norm_smul, Real.norm_of_nonneg (by norm_num : (0:ℝ) ≤ 1 / 2)]
    have h1 := bubble_le _ (h.bubble r) (hI T hT r) (hG T hT)
    have h2 := bubble_le _ (h.bubble r) (hG T hT) (hI T hT r)
    have h3 := norm_add_le (s.pi r (s.bare + others r T) (s.bare + total T)) (s.pi r (s.bare + total T) (s.bare + others r T))
    have h4 := h.into
    nlinarith
  · have hq : 0 ≤ x * (5 * u + 12 * R) := by positivity
    refine (pi_norm_le_iff_of_nonneg (by positivity)).2 fun r => ?_
    have hdI : ‖(s.bare + others r T) - (s.bare + others r T')‖ ≤ 2 * ‖T - T'‖ := by
      rw [add_sub_add_left_eq_sub, ← others_sub]
      exact norm_others r _
    have hdG : ‖(s.bare + total T) - (s.bare + total T')‖ ≤ 3 * ‖T - T'‖ := by
      rw [add_sub_add_left_eq_sub, ← total_sub]
      exact norm_total _
    rw [Pi.sub_apply, iterate, iterate, (c144_step s 0 0 T r).2.2, (c144_step s 0 0 T' r).2.2, ← smul_sub, norm_smul,
      Real.norm_of_nonneg (by norm_num : (0:ℝ) ≤ 1 / 2)]
    have e1 : ∀ I I' G G' : V, ‖I‖ ≤ u + 2 * R → ‖I'‖ ≤ u + 2 * R → ‖G‖ ≤ u + 3 * R → ‖G'‖ ≤ u + 3 * R →
        ‖I - I'‖ ≤ 2 * ‖T - T'‖ → ‖G - G'‖ ≤ 3 * ‖T - T'‖ →
        ‖s.pi r I G + s.pi r G I - (s.pi r I' G' + s.pi r G' I')‖ ≤ 2 * (x * (5 * u + 12 * R) * ‖T - T'‖) := by
      intro I I' G G' nI nI' nG nG' dI dG
      have e : s.pi r I G + s.pi r G I - (s.pi r I' G' + s.pi r G' I') =
          (s.pi r (I - I') G + s.pi r I' (G - G')) + (s.pi r G (I - I') + s.pi r (G - G') I') := by
        simp only [map_sub, _root_.sub_apply]
        abel
      rw [e]
      refine (norm_add_le _ _).trans ?_
      have k1 := bubble_le _ (h.bubble r) dI nG
      have k2 := bubble_le _ (h.bubble r) nI' dG
      have k3 := bubble_le _ (h.bubble r) nG dI
      have k4 := bubble_le _ (h.bubble r) dG nI'
      have m1 := norm_add_le (s.pi r (I - I') G) (s.pi r I' (G - G'))
      have m2 := norm_add_le (s.pi r G (I - I')) (s.pi r (G - G') I')
      nlinarith
    have := e1 _ _ _ _ (hI T hT r) (hI T' hT' r) (hG T hT) (hG T' hT') hdI hdG
    linarith

end Verif.Bse
