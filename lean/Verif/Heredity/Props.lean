import Verif.Heredity.Lemmas
import Mathlib.MeasureTheory.Group.Integral
import Mathlib.MeasureTheory.Measure.Haar.Unique
import Mathlib.MeasureTheory.Measure.Lebesgue.EqHaar
import Mathlib.MeasureTheory.Integral.Bochner.ContinuousLinearMap

/-! C149: the bubble of symmetric vertices is symmetric. -/
namespace Verif.Heredity
open Verif.Symmetries MeasureTheory
open Verif.Freqs (Ch)

section
variable {ph : Bool} {L R : Vertex ℝ ℂ} {P : Pair}

theorem reflect (f : ℝ → ℂ) : ∫ x : ℝ, f (-x) = ∫ x : ℝ, f x := integral_neg_eq_self f volume

/-- The external legs. -/
def ext (s : Nat) (α : Fin 4 → Bool) (ν : Fin 4 → ℝ) : Leg × Leg × Leg × Leg :=
  (⟨true, α 0, ν 0⟩, ⟨false, α 1, ν 1⟩, ⟨s == 0, α 2, ν 2⟩, ⟨s != 0, α 3, ν 3⟩)

/-- The integrand for external legs. -/
noncomputable def innerE (L R : Vertex ℝ ℂ) (P : Pair) (c : Ch) (e : Leg × Leg × Leg × Leg) (l : ℝ × ℝ) : ℂ :=
  inner L R P c e.1 e.2.1 e.2.2.1 e.2.2.2 l.1 l.2

theorem val_pos (h : Bool) (c : Ch) (s : Nat) (α : Fin 4 → Bool) {ν : Fin 4 → ℝ} (hν : ν 0 + ν 1 = ν 2 + ν 3) :
    (bubble L R P).val h c s α ν =
      pref c * ∫ x : ℝ, innerE (if h then R else L) (if h then L else R) P c (ext s α ν) (lineE c ν x) := by
  show (if _ then _ else _) = _
  rw [if_pos hν]; rfl

theorem val_neg (h : Bool) (c : Ch) (s : Nat) (α : Fin 4 → Bool) {ν : Fin 4 → ℝ} (hν : ¬ ν 0 + ν 1 = ν 2 + ν 3) :
    (bubble L R P).val h c s α ν = 0 := by
  show (if _ then _ else _) = _
  rw [if_neg hν]

theorem ext_in {s : Nat} (hs : s < 2) (α : Fin 4 → Bool) (ν : Fin 4 → ℝ) :
    ext (1 - s) (α ∘ swapIn) (ν ∘ swapIn) =
      ((ext s α ν).1, (ext s α ν).2.1, (ext s α ν).2.2.2, (ext s α ν).2.2.1) := by
  have hs : s = 0 ∨ s = 1 := by omega
  rcases hs with rfl | rfl <;> rfl

theorem ext_out {s : Nat} (hs : s < 2) (α : Fin 4 → Bool) (ν : Fin 4 → ℝ) :
    ext (1 - s) (α ∘ swapOut) (ν ∘ swapOut) = ((ext s α ν).2.1.flip, (ext s α ν).1.flip, (ext s α ν).2.2.1.flip,
      (ext s α ν).2.2.2.flip) := by
  have hs : s = 0 ∨ s = 1 := by omega
  rcases hs with rfl | rfl <;> rfl

theorem in_vals (ν : Fin 4 → ℝ) : (ν ∘ swapIn) 0 = ν 0 ∧ (ν ∘ swapIn) 1 = ν 1 ∧ (ν ∘ swapIn) 2 = ν 3 ∧
    (ν ∘ swapIn) 3 = ν 2 := ⟨rfl, rfl, rfl, rfl⟩

theorem out_vals (ν : Fin 4 → ℝ) : (ν ∘ swapOut) 0 = ν 1 ∧ (ν ∘ swapOut) 1 = ν 0 ∧ (ν ∘ swapOut) 2 = ν 2 ∧
    (ν ∘ swapOut) 3 = ν 3 := ⟨rfl, rfl, rfl, rfl⟩

theorem io_vals (ν : Fin 4 → ℝ) : (ν ∘ inOut) 0 = ν 2 ∧ (ν ∘ inOut) 1 = ν 3 ∧ (ν ∘ inOut) 2 = ν 0 ∧
    (ν ∘ inOut) 3 = ν 1 := ⟨rfl, rfl, rfl, rfl⟩

theorem pref_at : pref .a = -pref .t := by simp [pref]

theorem star_pref (c : Ch) : star (pref c) = -pref c := by
  cases c <;> simp [pref, Complex.conj_ofReal]

theorem if_swap {A : Type} (h : Bool) (a b : A) : (if xor h true then a else b) = if h then b else a := by
  cases h <;> rfl

theorem sym_ite (hL : Sym ⟨true, ph, false⟩ L) (hR : Sym ⟨true, ph, false⟩ R) (h : Bool) :
    Sym ⟨true, ph, false⟩ (if h then L else R) := by cases h <;> assumption

theorem bubble_a_in (hL : Sym ⟨true, ph, false⟩ L) (hR : Sym ⟨true, ph, false⟩ R) (hP : GoodPair ph P) (h : Bool)
    {s : Nat} (hs : s < 2) (α : Fin 4 → Bool) (ν : Fin 4 → ℝ) :
    (bubble L R P).val h .a s α ν = -(bubble L R P).val (xor h true) .t (1 - s) (α ∘ swapIn) (ν ∘ swapIn) := by
  obtain ⟨a0, a1, a2, a3⟩ := in_vals ν
  by_cases hν : ν 0 + ν 1 = ν 2 + ν 3
  · rw [val_pos h _ _ _ hν, val_pos _ _ _ _ (by rw [a0, a1, a2, a3, hν]; ring), ext_in hs, pref_at, if_swap, if_swap]
    rw [neg_mul]
    congr 2
    refine integral_congr_ae (Filter.Eventually.of_forall fun x => ?_)
    have e : lineE .t (ν ∘ swapIn) x = ((lineE .a ν x).2, (lineE .a ν x).1) := by
      unfold lineE; rw [a1, a3]
      have : ν 2 - ν 1 = -(ν 3 - ν 0) := by linarith
      dsimp only
      rw [this]; congr 1 <;> ring
    dsimp only
    rw [e]
    exact inner_a_in (sym_ite hR hL h) (sym_ite hL hR h) hP _ _ _ _ _ _
  · rw [val_neg h _ _ _ hν, val_neg _ _ _ _ (by rw [a0, a1, a2, a3]; intro h'; exact hν (by linarith))]; simp

theorem bubble_a_out (hL : Sym ⟨true, ph, false⟩ L) (hR : Sym ⟨true, ph, false⟩ R) (h : Bool)
    {s : Nat} (hs : s < 2) (α : Fin 4 → Bool) (ν : Fin 4 → ℝ) :
    (bubble L R P).val h .a s α ν = -(bubble L R P).val h .t (1 - s) (α ∘ swapOut) (ν ∘ swapOut) := by
  obtain ⟨a0, a1, a2, a3⟩ := out_vals ν
  by_cases hν : ν 0 + ν 1 = ν 2 + ν 3
  · rw [val_pos h _ _ _ hν, val_pos _ _ _ _ (by rw [a0, a1, a2, a3, ← hν]; ring), ext_out hs, pref_at]
    rw [neg_mul]
    congr 2
    refine integral_congr_ae (Filter.Eventually.of_forall fun x => ?_)
    have e : lineE .t (ν ∘ swapOut) x = lineE .a ν x := by
      unfold lineE; rw [a1, a3]
    dsimp only
    rw [e]
    unfold innerE
    rw [inner_flip]
    exact inner_a_out (sym_ite hR hL h) (sym_ite hL hR h) _ _ _ _ _ _
  · rw [val_neg h _ _ _ hν, val_neg _ _ _ _ (by rw [a0, a1, a2, a3]; intro h'; exact hν (by linarith))]; simp

theorem bubble_p_in (hL : Sym ⟨true, ph, false⟩ L) (hR : Sym ⟨true, ph, false⟩ R) (hP : GoodPair ph P) (h : Bool)
    {s : Nat} (hs : s < 2) (α : Fin 4 → Bool) (ν : Fin 4 → ℝ) :
    (bubble L R P).val h .p s α ν = -(bubble L R P).val h .p (1 - s) (α ∘ swapIn) (ν ∘ swapIn) := by
  obtain ⟨a0, a1, a2, a3⟩ := in_vals ν
  by_cases hν : ν 0 + ν 1 = ν 2 + ν 3
  · rw [val_pos h _ _ _ hν, val_pos _ _ _ _ (by rw [a0, a1, a2, a3, hν]; ring), ext_in hs,
      ← reflect, ← mul_neg, ← integral_neg]
    congr 1
    refine integral_congr_ae (Filter.Eventually.of_forall fun x => ?_)
    have e : lineE .p ν (-x) = ((lineE .p (ν ∘ swapIn) x).2, (lineE .p (ν ∘ swapIn) x).1) := by
      unfold lineE; rw [a0, a1]; simp
    dsimp only
    rw [e]
    exact inner_p_in (sym_ite hR hL h) (sym_ite hL hR h) hP _ _ _ _ _ _
  · rw [val_neg h _ _ _ hν, val_neg _ _ _ _ (by rw [a0, a1, a2, a3]; intro h'; exact hν (by linarith))]; simp

theorem bubble_p_out (hL : Sym ⟨true, ph, false⟩ L) (hR : Sym ⟨true, ph, false⟩ R) (h : Bool)
    {s : Nat} (hs : s < 2) (α : Fin 4 → Bool) (ν : Fin 4 → ℝ) :
    (bubble L R P).val h .p s α ν = -(bubble L R P).val h .p (1 - s) (α ∘ swapOut) (ν ∘ swapOut) := by
  obtain ⟨a0, a1, a2, a3⟩ := out_vals ν
  by_cases hν : ν 0 + ν 1 = ν 2 + ν 3
  · rw [val_pos h _ _ _ hν, val_pos _ _ _ _ (by rw [a0, a1, a2, a3, ← hν]; ring), ext_out hs, ← mul_neg, ← integral_neg]
    congr 1
    refine integral_congr_ae (Filter.Eventually.of_forall fun x => ?_)
    have e : lineE .p (ν ∘ swapOut) x = lineE .p ν x := by
      unfold lineE; rw [a0, a1, add_comm (ν 1)]
    dsimp only
    rw [e]
    unfold innerE
    rw [inner_flip]
    exact inner_p_out (sym_ite hR hL h) _ _ _ _ _ _
  · rw [val_neg h _ _ _ hν, val_neg _ _ _ _ (by rw [a0, a1, a2, a3]; intro h'; exact hν (by linarith))]; simp

theorem conjSign_sg' (α : Fin 4 → Bool) :
    ((conjSign false α : ℤ) : ℂ) = -(sg (α 0) * sg (α 1) * sg (α 2) * sg (α 3)) := by
  have : α = ![α 0, α 1, α 2, α 3] := by funext i; fin_cases i <;> rfl
  conv_lhs => rw [this]
  exact conjSign_sg _ _ _ _

theorem star_integral (f : ℝ → ℂ) : star (∫ x : ℝ, f x) = ∫ x : ℝ, star (f x) := (integral_conj (f := f)).symm

/-- From the integrand to the bubble. -/
theorem bubble_conj_aux {h h' : Bool} {c : Ch} {s : Nat} {α β : Fin 4 → Bool} {ν μ : Fin 4 → ℝ}
    (hν : ν 0 + ν 1 = ν 2 + ν 3 ↔ μ 0 + μ 1 = μ 2 + μ 3)
    (hi : ν 0 + ν 1 = ν 2 + ν 3 →
      ∫ x : ℝ, innerE (if h then R else L) (if h then L else R) P c (ext s α ν) (lineE c ν x) =
      ∫ x : ℝ, sg (α 0) * sg (α 1) * sg (α 2) * sg (α 3) *
        star (innerE (if h' then R else L) (if h' then L else R) P c (ext s β μ) (lineE c μ x))) :
    (bubble L R P).val h c s α ν = (conjSign false α : ℂ) * star ((bubble L R P).val h' c s β μ) := by
  by_cases hc : ν 0 + ν 1 = ν 2 + ν 3
  · rw [val_pos h _ _ _ hc, val_pos _ _ _ _ (hν.1 hc), hi hc, integral_const_mul, conjSign_sg', star_mul', star_pref,
      star_integral]
    ring
  · rw [val_neg h _ _ _ hc, val_neg _ _ _ _ (fun h => hc (hν.2 h))]; simp

theorem ext_io (s : Nat) (hs : s < 2) (α : Fin 4 → Bool) (ν : Fin 4 → ℝ) (L R : Vertex ℝ ℂ) (P : Pair) (c : Ch)
    (l : ℝ × ℝ) : innerE L R P c (ext s (α ∘ inOut) (ν ∘ inOut)) l =
      inner L R P c (ext s α ν).2.2.1 (ext s α ν).2.2.2 (ext s α ν).1 (ext s α ν).2.1 l.1 l.2 := by
  have hs : s = 0 ∨ s = 1 := by omega
  rcases hs with rfl | rfl
  · rfl
  · rw [← inner_flip]; rfl

theorem bubble_conj (hL : Sym ⟨true, ph, false⟩ L) (hR : Sym ⟨true, ph, false⟩ R) (hP : GoodPair ph P) (h : Bool)
    (c : Ch) {s : Nat} (hs : s < 2) (α : Fin 4 → Bool) (ν : Fin 4 → ℝ) :
    (bubble L R P).val h c s α ν = (conjSign false α : ℂ) *
      star ((bubble L R P).val (xor h (sideFlip c c inOut)) c s (α ∘ inOut) (ν ∘ inOut)) := by
  obtain ⟨a0, a1, a2, a3⟩ := io_vals ν
  refine bubble_conj_aux (by rw [a0, a1, a2, a3]; exact eq_comm) fun hν => ?_
  cases c
  · have e1 : sideFlip .a .a inOut = true := by decide
    rw [e1, if_swap, if_swap]
    refine integral_congr_ae (Filter.Eventually.of_forall fun x => ?_)
    have e : lineE .a (ν ∘ inOut) x = lineE .a ν x := by
      unfold lineE; rw [a0, a3]
      have : ν 1 - ν 2 = ν 3 - ν 0 := by linarith
      dsimp only; rw [this]
    dsimp only
    rw [e, ext_io s hs]
    exact inner_a_conj (sym_ite hR hL h) (sym_ite hL hR h) hP _ _ _ _ _ _
  · have e1 : sideFlip .p .p inOut = true := by decide
    rw [e1, if_swap, if_swap]
    have e : ∀ x, lineE .p (ν ∘ inOut) x = lineE .p ν x := by
      intro x
      unfold lineE; rw [a0, a1]
      dsimp only; rw [hν]
    simp only [e]
    have hs' : s = 0 ∨ s = 1 := by omega
    rcases hs' with rfl | rfl
    · refine integral_congr_ae (Filter.Eventually.of_forall fun x => ?_)
      dsimp only
      rw [ext_io 0 hs]
      exact inner_p_conj (sym_ite hR hL h) (sym_ite hL hR h) hP (ext 0 α ν).1 (ext 0 α ν).2.1 (ext 0 α ν).2.2.1
        (ext 0 α ν).2.2.2 rfl rfl (lineE .p ν x).1 (lineE .p ν x).2
    · rw [← reflect fun x => innerE (if h then R else L) (if h then L else R) P .p (ext 1 α ν) (lineE .p ν x)]
      refine integral_congr_ae (Filter.Eventually.of_forall fun x => ?_)
      dsimp only
      rw [ext_io 1 hs]
      have e' : lineE .p ν (-x) = ((lineE .p ν x).2, (lineE .p ν x).1) := by
        unfold lineE; simp
      rw [e']
      exact inner_p_conj' (sym_ite hR hL h) (sym_ite hL hR h) hP (ext 1 α ν).1 (ext 1 α ν).2.1 (ext 1 α ν).2.2.1
        (ext 1 α ν).2.2.2 rfl rfl (lineE .p ν x).2 (lineE .p ν x).1
  · have e1 : sideFlip .t .t inOut = false := by decide
    rw [e1, Bool.xor_false]
    refine integral_congr_ae (Filter.Eventually.of_forall fun x => ?_)
    have e : lineE .t (ν ∘ inOut) x = ((lineE .t ν x).2, (lineE .t ν x).1) := by
      unfold lineE; rw [a1, a3]
      dsimp only
      have : ν 1 - ν 3 = -(ν 3 - ν 1) := by ring
      rw [this]; congr 1 <;> ring
    dsimp only
    rw [e, ext_io s hs]
    exact inner_t_conj (sym_ite hR hL h) (sym_ite hL hR h) hP _ _ _ _ _ _

theorem bubble_ph (hL : Sym ⟨true, true, false⟩ L) (hR : Sym ⟨true, true, false⟩ R) (hP : GoodPair true P) (h : Bool)
    (c : Ch) (s : Nat) (α : Fin 4 → Bool) (ν : Fin 4 → ℝ) :
    (bubble L R P).val h c s α ν = (conjSign false α : ℂ) * star ((bubble L R P).val h c s α (fun k => -ν k)) := by
  refine bubble_conj_aux ⟨fun h => by linarith, fun h => by linarith⟩ fun hν => ?_
  rw [← reflect]
  refine integral_congr_ae (Filter.Eventually.of_forall fun x => ?_)
  have e : lineE c (fun k => -ν k) x = (-(lineE c ν (-x)).1, -(lineE c ν (-x)).2) := by
    cases c <;> (unfold lineE; dsimp only; congr 1 <;> ring)
  dsimp only
  rw [e]
  exact inner_ph (sym_ite hR hL h) (sym_ite hL hR h) hP c _ _ _ _ _ _

/-- C149: if the vertices of a bubble have the crossing, conjugation and particle-hole symmetries, and so has the pair
of propagators, the bubble has them. -/
theorem c149_symmetric (hL : Sym ⟨true, ph, false⟩ L) (hR : Sym ⟨true, ph, false⟩ R) (hP : GoodPair ph P) :
    Sym ⟨true, ph, false⟩ (bubble L R P) where
  crossIn h c s α ν hs := by
    simp only [Bool.false_eq_true, if_false, neg_mul, one_mul]
    cases c
    · have e1 : sideFlip .a (crossed .a) swapIn = true := by decide
      rw [e1]
      exact bubble_a_in hL hR hP h hs α ν
    · have e1 : sideFlip .p (crossed .p) swapIn = false := by decide
      rw [e1, Bool.xor_false]
      exact bubble_p_in hL hR hP h hs α ν
    · have e1 : sideFlip .t (crossed .t) swapIn = true := by decide
      rw [e1]
      have := bubble_a_in hL hR hP (xor h true) (s := 1 - s) (by omega) (α ∘ swapIn) (ν ∘ swapIn)
      have e2 : 1 - (1 - s) = s := by omega
      have e3 : ∀ {A : Type} (f : Fin 4 → A), (f ∘ swapIn) ∘ swapIn = f := by
        intro A f; funext i; fin_cases i <;> rfl
      have e4 : xor (xor h true) true = h := by simp
      rw [e2, e3, e3, e4] at this
      rw [show crossed .t = Ch.a from rfl, this, neg_neg]
  crossOut h c s α ν hs := by
    simp only [Bool.false_eq_true, if_false, neg_mul, one_mul]
    cases c
    · have e1 : sideFlip .a (crossed .a) swapOut = false := by decide
      rw [e1, Bool.xor_false]
      exact bubble_a_out hL hR h hs α ν
    · have e1 : sideFlip .p (crossed .p) swapOut = false := by decide
      rw [e1, Bool.xor_false]
      exact bubble_p_out hL hR h hs α ν
    · have e1 : sideFlip .t (crossed .t) swapOut = false := by decide
      rw [e1, Bool.xor_false]
      have := bubble_a_out (P := P) hL hR h (s := 1 - s) (by omega) (α ∘ swapOut) (ν ∘ swapOut)
      have e2 : 1 - (1 - s) = s := by omega
      have e3 : ∀ {A : Type} (f : Fin 4 → A), (f ∘ swapOut) ∘ swapOut = f := by
        intro A f; funext i; fin_cases i <;> rfl
      rw [e2, e3, e3] at this
      rw [show crossed .t = Ch.a from rfl, this, neg_neg]
  conjK _ h c s α ν hs := bubble_conj hL hR hP h c hs α ν
  conjM h := by cases h
  ph _ hp h c s α ν hs := by
    cases hp
    exact bubble_ph hL hR hP h c s α ν
  tr h := by cases h
  real h := by cases h

end

end Verif.Heredity
