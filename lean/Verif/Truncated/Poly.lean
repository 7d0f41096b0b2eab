import Verif.Truncated.Ode
import Verif.Family.Lemmas
import Verif.Multiloop.Props

/-! The right-hand side with a fixed number of loops is a polynomial in the bubbles and the state. -/
namespace Verif.Truncated
open Keldysh (Ch)
open Multiloop (Known others total sides middle)
open Verif.Family

variable {V P S : Type} [NormedAddCommGroup V] [NormedSpace ℝ V] [NormedAddCommGroup P] [NormedSpace ℝ P]
  [NormedAddCommGroup S] [NormedSpace ℝ S]

/-- What depends on the scale: bubbles, differentiated bubbles, and the parts taken of the central contributions. -/
abbrev Ingr (V : Type) [NormedAddCommGroup V] [NormedSpace ℝ V] := Bub V × Bub V × (V →L[ℝ] V) × (V →L[ℝ] V)

/-- The ingredients at one scale. -/
noncomputable def ingr (k : Known V P S) (σ : S) : Ingr V := (k.pi, dbubble k σ, k.k2, k.k2b)

/-- One evaluation with given ingredients and state. -/
noncomputable def known (bare : V) (z : Ingr V × (Ch → V)) : Known V ℝ ℝ where
  bare := bare
  red := z.2
  pi := z.1.1
  dpi _ := z.1.2.1
  loop := 0
  ext := 0
  G := 0
  single := 0
  k2 := z.1.2.2.1
  k2b := z.1.2.2.2

/-- The sum of `n` loop orders. -/
noncomputable def poly (bare : V) : ℕ → Ingr V × (Ch → V) → Ch → V
  | 0, _ => 0
  | 1, z => (known bare z).one 0
  | n + 2, z => (known bare z).one 0 + sides (known bare z) (poly bare (n + 1) z) + middle (known bare z) (poly bare n z)

theorem loops_poly (E : MfRG.Eqs (Ch → V) S) (k : ℝ → Known V P S) (σ : ℝ → S) {bare : V} {l : ℝ} (hb : (k l).bare = bare) (T : Ch → V) (n : ℕ) :
    loops E k σ n T l = poly bare n (ingr (k l) (σ l), T) := by
  subst hb
  have key : ∀ n, loops E k σ n T l = poly (k l).bare n (ingr (k l) (σ l), T) ∧ loops E k σ (n + 1) T l = poly (k l).bare (n + 1) (ingr (k l) (σ l), T) := by
    intro n
    induction n with
    | zero => exact ⟨Multiloop.sumTo_zero _ _ _, (Multiloop.sumTo_one _ _ _).trans rfl⟩
    | succ n ih =>
      refine ⟨ih.2, ?_⟩
      have : loops E k σ (n + 2) T l = (withState (k l) T).one (σ l) + sides (withState (k l) T) (loops E k σ (n + 1) T l) +
          middle (withState (k l) T) (loops E k σ n T l) := Multiloop.sumTo_rec _ _ _ _
      show loops E k σ (n + 2) T l = _
      rw [this, ih.1, ih.2]
      rfl
  exact (key n).1

variable {m : WithTop ℕ∞}

theorem contDiff_full (bare : V) : ContDiff ℝ m fun z : Ingr V × (Ch → V) => (known bare z).full := by
  unfold Known.full total known
  fun_prop

theorem contDiff_others {X : Type} [NormedAddCommGroup X] [NormedSpace ℝ X] {T : X → Ch → V} (hT : ContDiff ℝ m T) (r : Ch) :
    ContDiff ℝ m fun z => others r (T z) := by
  cases r <;> simp only [others] <;> fun_prop

theorem contDiff_poly (bare : V) (n : ℕ) : ContDiff ℝ m (poly bare n) := by
  have pi : ∀ r, ContDiff ℝ m fun z : Ingr V × (Ch → V) => (known bare z).pi r := fun r => by unfold known; fun_prop
  have one : ContDiff ℝ m fun z : Ingr V × (Ch → V) => (known bare z).one 0 := by
    refine contDiff_pi.2 fun r => ?_
    have d : ContDiff ℝ m fun z : Ingr V × (Ch → V) => (known bare z).dpi ((known bare z).katanin 0) r := by
      show ContDiff ℝ m fun z : Ingr V × (Ch → V) => z.1.2.1 r
      fun_prop
    exact (d.clm_apply (contDiff_full bare)).clm_apply (contDiff_full bare)
  have left : ∀ T : Ingr V × (Ch → V) → Ch → V, ContDiff ℝ m T → ∀ r, ContDiff ℝ m fun z => (known bare z).left (T z) r := fun T hT r =>
    ((pi r).clm_apply (contDiff_others hT r)).clm_apply (contDiff_full bare)
  have right : ∀ T : Ingr V × (Ch → V) → Ch → V, ContDiff ℝ m T → ∀ r, ContDiff ℝ m fun z => (known bare z).right (T z) r := fun T hT r =>
    ((pi r).clm_apply (contDiff_full bare)).clm_apply (contDiff_others hT r)
  have k2 : ContDiff ℝ m fun z : Ingr V × (Ch → V) => (known bare z).k2 := by unfold known; fun_prop
  have k2b : ContDiff ℝ m fun z : Ingr V × (Ch → V) => (known bare z).k2b := by unfold known; fun_prop
  have mid : ∀ T : Ingr V × (Ch → V) → Ch → V, ContDiff ℝ m T → ContDiff ℝ m fun z => middle (known bare z) (T z) := fun T hT => by
    refine contDiff_pi.2 fun r => ?_
    have cr : ContDiff ℝ m fun z => (known bare z).centralRight ((known bare z).left (T z)) r :=
      ((pi r).clm_apply (contDiff_full bare)).clm_apply (left T hT r)
    have cl : ContDiff ℝ m fun z => (known bare z).centralLeft ((known bare z).right (T z)) r :=
      ((pi r).clm_apply (right T hT r)).clm_apply (contDiff_full bare)
    have cl' := (cl.sub (k2.clm_apply cl)).add (k2.clm_apply cr)
    have cr' := (cr.sub (k2b.clm_apply cr)).add (k2b.clm_apply cl')
    exact contDiff_const.smul (cr'.add cl')
  have sid : ∀ T : Ingr V × (Ch → V) → Ch → V, ContDiff ℝ m T → ContDiff ℝ m fun z => sides (known bare z) (T z) := fun T hT =>
    contDiff_pi.2 fun r => (left T hT r).add (right T hT r)
  have key : ∀ n, ContDiff ℝ m (poly bare n) ∧ ContDiff ℝ m (poly bare (n + 1)) := by
    intro n
    induction n with
    | zero => exact ⟨contDiff_const, one⟩
    | succ n ih => exact ⟨ih.2, (one.add (sid _ ih.2)).add (mid _ ih.1)⟩
  exact (key n).1

end Verif.Truncated
