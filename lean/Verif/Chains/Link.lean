import Verif.Chains.Bubble

/-! The bilinear maps are the bubbles. -/
namespace Verif.Chains
open Verif.Heredity Verif.Invariant MeasureTheory Filter Topology
open Verif.Freqs (Ch)

theorem sum_lines (f : Lines → ℂ) : ∑ q, f q = ∑ y : Ends, (f ⟨true, true, y.1, y.2.1, y.2.2.1, y.2.2.2⟩ +
    f ⟨true, false, y.1, y.2.1, y.2.2.1, y.2.2.2⟩ + f ⟨false, true, y.1, y.2.1, y.2.2.1, y.2.2.2⟩ +
    f ⟨false, false, y.1, y.2.1, y.2.2.1, y.2.2.2⟩) := by
  rw [← Lines.equiv.symm.sum_comp]
  rw [Finset.sum_add_distrib, Finset.sum_add_distrib, Finset.sum_add_distrib, Fintype.sum_prod_type, Fintype.sum_bool]
  have e : ∀ g : Bool × Ends → ℂ, ∑ q, g q = ∑ y, g (true, y) + ∑ y, g (false, y) := fun g => by
    rw [Fintype.sum_prod_type, Fintype.sum_bool]
  rw [e, e, add_assoc, add_assoc, add_assoc]
  rfl

/-- One term of the bubble without spin. -/
noncomputable def part (P : Pair) (c : Ch) (f g : Spinless) (α : Fin 4 → Bool) (e : ℝ × ℝ × ℝ) (x : ℝ) (y : Ends) : ℂ :=
  f (li c α y) (chart c ((unchart c e).1, (unchart c e).2.1, x)) *
    P y.1 y.2.1 y.2.2.1 y.2.2.2 (lines c (unchart c e).1 x).1 (lines c (unchart c e).1 x).2 *
    g (ri c α y) (chart c ((unchart c e).1, x, (unchart c e).2.2))

theorem pref_ne (c : Ch) : pref c ≠ 0 := by
  have := Real.pi_ne_zero
  cases c <;> simp [pref, this]

section
variable {N : ℝ} {P : Pair} (h : Pairs N P) (c : Ch) (f g : Spinless) (α : Fin 4 → Bool) (e : ℝ × ℝ × ℝ)
include h

theorem part_int (y : Ends) : Integrable fun x => part P c f g α e x y := by
  have i := (h c y).integrand (fwd c (f (li c α y))) (fwd c (g (ri c α y))) (unchart c e).1 (unchart c e).2.1 (unchart c e).2.2
  refine (i.const_mul (pref c)⁻¹).congr (Eventually.of_forall fun x => ?_)
  have := pref_ne c
  simp only [part, ker, fwd_apply]
  field_simp

theorem parts_int : Integrable fun x => ∑ y, part P c f g α e x y := integrable_finsetSum _ fun y _ => part_int h c f g α e y

theorem core_apply : core P c f g α e = pref c * ∫ x, ∑ y, part P c f g α e x y := by
  rw [integral_finsetSum _ fun y _ => part_int h c f g α e y, Finset.mul_sum, core, BoundedContinuousFunction.sum_apply]
  refine Finset.sum_congr rfl fun y _ => ?_
  rw [back_apply, one_apply (h c y), oneFun, ← integral_const_mul]
  congr 1; funext x
  simp only [part, ker, fwd_apply]; ring

end

theorem legs_conserve (e : ℝ × ℝ × ℝ) : allLegs e 0 + allLegs e 1 = allLegs e 2 + allLegs e 3 := by
  simp [allLegs]

theorem lines_eq (c : Ch) (e : ℝ × ℝ × ℝ) (x : ℝ) : Heredity.lineE c (allLegs e) x = lines c (unchart c e).1 x := by
  cases c <;> simp only [Heredity.lineE, lines, unchart, allLegs] <;> simp <;> ring

theorem inner_spin (A B : Four) (P : Pair) (c : Ch) (s : Bool) (α : Fin 4 → Bool) (e : ℝ × ℝ × ℝ) (x : ℝ) :
    Heredity.inner ⟨asVertex A⟩ ⟨asVertex B⟩ P c ⟨true, α 0, allLegs e 0⟩ ⟨false, α 1, allLegs e 1⟩ ⟨spinNo s == 0, α 2, allLegs e 2⟩
      ⟨spinNo s != 0, α 3, allLegs e 3⟩ (lines c (unchart c e).1 x).1 (lines c (unchart c e).1 x).2 =
    match c, s with
    | .a, false => ∑ y, part P .a (A false) (B false) α e x y
    | .a, true => (∑ y, part P .a (A false + A true) (B true) α e x y) + ∑ y, part P .a (A true) (B false + B true) α e x y
    | .p, false => ∑ y, part P .p (A false) (B false) α e x y
    | .p, true => ∑ y, part P .p (A true) (B false) α e x y
    | .t, false => (∑ y, part P .t (A false) (B false + B true) α e x y) + ∑ y, part P .t (A false + A true) (B false) α e x y
    | .t, true => ∑ y, part P .t (A true) (B true) α e x y := by
  obtain ⟨e0, e1, e2⟩ := e
  have ha : chart .a ((unchart .a (e0, e1, e2)).1, (unchart .a (e0, e1, e2)).2.1, x) =
      (e0, (lines .a (unchart .a (e0, e1, e2)).1 x).2, (lines .a (unchart .a (e0, e1, e2)).1 x).1) := by
    refine Prod.ext ?_ (Prod.ext ?_ ?_) <;> simp only [chart, unchart, lines] <;> ring
  have ha' : chart .a ((unchart .a (e0, e1, e2)).1, x, (unchart .a (e0, e1, e2)).2.2) =
      ((lines .a (unchart .a (e0, e1, e2)).1 x).1, e1, e2) := by
    refine Prod.ext ?_ (Prod.ext ?_ ?_) <;> simp only [chart, unchart, lines] <;> ring
  have hp : chart .p ((unchart .p (e0, e1, e2)).1, (unchart .p (e0, e1, e2)).2.1, x) =
      (e0, e1, (lines .p (unchart .p (e0, e1, e2)).1 x).1) := by
    refine Prod.ext ?_ (Prod.ext ?_ ?_) <;> simp only [chart, unchart, lines] <;> ring
  have hp' : chart .p ((unchart .p (e0, e1, e2)).1, x, (unchart .p (e0, e1, e2)).2.2) =
      ((lines .p (unchart .p (e0, e1, e2)).1 x).1, (lines .p (unchart .p (e0, e1, e2)).1 x).2, e2) := by
    refine Prod.ext ?_ (Prod.ext ?_ ?_) <;> simp only [chart, unchart, lines] <;> ring
  have ht : chart .t ((unchart .t (e0, e1, e2)).1, (unchart .t (e0, e1, e2)).2.1, x) =
      ((lines .t (unchart .t (e0, e1, e2)).1 x).2, e1, (lines .t (unchart .t (e0, e1, e2)).1 x).1) := by
    refine Prod.ext ?_ (Prod.ext ?_ ?_) <;> simp only [chart, unchart, lines] <;> ring
  have ht' : chart .t ((unchart .t (e0, e1, e2)).1, x, (unchart .t (e0, e1, e2)).2.2) =
      (e0, (lines .t (unchart .t (e0, e1, e2)).1 x).1, e2) := by
    refine Prod.ext ?_ (Prod.ext ?_ ?_) <;> simp only [chart, unchart, lines] <;> ring
  unfold Heredity.inner
  rw [sum_lines]
  cases c <;> cases s <;> simp only [← Finset.sum_add_distrib] <;> refine Finset.sum_congr rfl fun y _ => ?_ <;>
    simp [term, legVal, part, asVertex, spinNo, allLegs, li, ri, ha, ha', hp, hp', ht, ht']

/-- The bilinear maps are the bubbles the code computes. -/
theorem bubbles_is {N : ℝ} {P : Pair} (h : Pairs N P) : IsBubble P (bubbles P) := by
  intro r A B s α e
  rw [bubbles_apply h, bub, bubble]
  simp only [legs_conserve, if_true, lines_eq, Bool.false_eq_true, if_false]
  simp only [inner_spin]
  cases r <;> cases s <;> simp only [chan, spinBubble, core_apply h, BoundedContinuousFunction.add_apply, Pi.add_apply]
  · rw [integral_add (parts_int h ..) (parts_int h ..), mul_add]
  · rw [integral_add (parts_int h ..) (parts_int h ..), mul_add]

end Verif.Chains
