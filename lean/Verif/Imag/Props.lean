import Verif.Imag.Lemmas
import Mathlib.Tactic.Linarith
import Mathlib.Tactic.LinearCombination

/-! C157: the bubble of symmetric vertices at imaginary frequencies is symmetric. -/
namespace Verif.Imag
open Verif.Symmetries
open Verif.Freqs (Ch)

section
variable {K R : Type} [CommRing K] [DecidableEq K] [CommRing R] [StarRing R]
variable {ph : Bool} {L M : Vertex K R} {P : K → K → R} {S : Total K R}

/-- The external legs. -/
def ext (s : Nat) (ν : Fin 4 → K) : Leg K × Leg K × Leg K × Leg K :=
  (⟨true, ν 0⟩, ⟨false, ν 1⟩, ⟨s == 0, ν 2⟩, ⟨s != 0, ν 3⟩)

/-- The summand for external legs. -/
def innerE (L M : Vertex K R) (P : K → K → R) (c : Ch) (e : Leg K × Leg K × Leg K × Leg K) : K → K → R :=
  inner L M P c e.1 e.2.1 e.2.2.1 e.2.2.2

theorem val_pos (h : Bool) (c : Ch) (s : Nat) (α : Fin 4 → Bool) {ν : Fin 4 → K} (hν : ν 0 + ν 1 = ν 2 + ν 3) :
    (bubble S L M P).val h c s α ν =
      loopSign c * S c (transfer c ν) (innerE (if h then M else L) (if h then L else M) P c (ext s ν)) := by
  show (if _ then _ else _) = _
  rw [if_pos hν]; rfl

theorem val_neg (h : Bool) (c : Ch) (s : Nat) (α : Fin 4 → Bool) {ν : Fin 4 → K} (hν : ¬ ν 0 + ν 1 = ν 2 + ν 3) :
    (bubble S L M P).val h c s α ν = 0 := by
  show (if _ then _ else _) = _
  rw [if_neg hν]

theorem ext_in {s : Nat} (hs : s < 2) (ν : Fin 4 → K) :
    ext (1 - s) (ν ∘ swapIn) = ((ext s ν).1, (ext s ν).2.1, (ext s ν).2.2.2, (ext s ν).2.2.1) := by
  have hs : s = 0 ∨ s = 1 := by omega
  rcases hs with rfl | rfl <;> rfl

theorem ext_out {s : Nat} (hs : s < 2) (ν : Fin 4 → K) :
    ext (1 - s) (ν ∘ swapOut) = ((ext s ν).2.1.flip, (ext s ν).1.flip, (ext s ν).2.2.1.flip,
      (ext s ν).2.2.2.flip) := by
  have hs : s = 0 ∨ s = 1 := by omega
  rcases hs with rfl | rfl <;> rfl

theorem ext_io {s : Nat} (hs : s < 2) (ν : Fin 4 → K) (L M : Vertex K R) (P : K → K → R) (c : Ch) (y z : K) :
    innerE L M P c (ext s (fun k => -ν (inOut k))) y z = inner L M P c (ext s ν).2.2.1.neg (ext s ν).2.2.2.neg
      (ext s ν).1.neg (ext s ν).2.1.neg y z := by
  have hs : s = 0 ∨ s = 1 := by omega
  rcases hs with rfl | rfl
  · rfl
  · rw [← inner_flip]; rfl

theorem in_vals (ν : Fin 4 → K) : (ν ∘ swapIn) 0 = ν 0 ∧ (ν ∘ swapIn) 1 = ν 1 ∧ (ν ∘ swapIn) 2 = ν 3 ∧
    (ν ∘ swapIn) 3 = ν 2 := ⟨rfl, rfl, rfl, rfl⟩

theorem out_vals (ν : Fin 4 → K) : (ν ∘ swapOut) 0 = ν 1 ∧ (ν ∘ swapOut) 1 = ν 0 ∧ (ν ∘ swapOut) 2 = ν 2 ∧
    (ν ∘ swapOut) 3 = ν 3 := ⟨rfl, rfl, rfl, rfl⟩

theorem sign_at : (loopSign .a : R) = -loopSign .t := by simp [loopSign]

theorem star_sign (c : Ch) : star (loopSign c : R) = loopSign c := by cases c <;> simp [loopSign]

theorem if_swap {A : Type} (h : Bool) (a b : A) : (if xor h true then a else b) = if h then b else a := by
  cases h <;> rfl

theorem sym_ite (hL : Sym ⟨false, ph, false⟩ L) (hM : Sym ⟨false, ph, false⟩ M) (h : Bool) :
    Sym ⟨false, ph, false⟩ (if h then L else M) := by cases h <;> assumption

theorem bubble_a_in (hS : GoodTotal S) (hL : Sym ⟨false, ph, false⟩ L) (hM : Sym ⟨false, ph, false⟩ M)
    (hP : GoodPair P) (h : Bool) {s : Nat} (hs : s < 2) (α β : Fin 4 → Bool) (ν : Fin 4 → K) :
    (bubble S L M P).val h .a s α ν = -(bubble S L M P).val (xor h true) .t (1 - s) β (ν ∘ swapIn) := by
  obtain ⟨a0, a1, a2, a3⟩ := in_vals ν
  by_cases hν : ν 0 + ν 1 = ν 2 + ν 3
  · rw [val_pos h _ _ _ hν, val_pos _ _ _ _ (by rw [a0, a1, a2, a3, hν]; ring), ext_in hs, sign_at, if_swap, if_swap]
    rw [neg_mul]
    congr 2
    have e : transfer .t (ν ∘ swapIn) = -transfer .a ν := by
      simp only [transfer, a1, a3]; linear_combination -hν
    rw [e, hS.exchange, hS.channels]
    congr 1
    funext y z
    exact inner_a_in (sym_ite hM hL h) (sym_ite hL hM h) hP _ _ _ _ _ _
  · rw [val_neg h _ _ _ hν, val_neg _ _ _ _ (by
      rw [a0, a1, a2, a3]; intro h'; exact hν (by rw [h', add_comm]))]; simp

theorem bubble_a_out (hS : GoodTotal S) (hL : Sym ⟨false, ph, false⟩ L) (hM : Sym ⟨false, ph, false⟩ M) (h : Bool)
    {s : Nat} (hs : s < 2) (α β : Fin 4 → Bool) (ν : Fin 4 → K) :
    (bubble S L M P).val h .a s α ν = -(bubble S L M P).val h .t (1 - s) β (ν ∘ swapOut) := by
  obtain ⟨a0, a1, a2, a3⟩ := out_vals ν
  by_cases hν : ν 0 + ν 1 = ν 2 + ν 3
  · rw [val_pos h _ _ _ hν, val_pos _ _ _ _ (by rw [a0, a1, a2, a3, ← hν]; ring), ext_out hs, sign_at]
    rw [neg_mul]
    congr 2
    have e : transfer .t (ν ∘ swapOut) = transfer .a ν := rfl
    rw [e, hS.channels]
    congr 1
    funext y z
    show _ = inner _ _ _ _ _ _ _ _ _ _
    rw [inner_flip]
    exact inner_a_out (sym_ite hM hL h) (sym_ite hL hM h) _ _ _ _ _ _
  · rw [val_neg h _ _ _ hν, val_neg _ _ _ _ (by
      rw [a0, a1, a2, a3]; intro h'; exact hν (by rw [add_comm, h']))]; simp

theorem bubble_p_in (hS : GoodTotal S) (hL : Sym ⟨false, ph, false⟩ L) (hM : Sym ⟨false, ph, false⟩ M)
    (hP : GoodPair P) (h : Bool) {s : Nat} (hs : s < 2) (α β : Fin 4 → Bool) (ν : Fin 4 → K) :
    (bubble S L M P).val h .p s α ν = -(bubble S L M P).val h .p (1 - s) β (ν ∘ swapIn) := by
  obtain ⟨a0, a1, a2, a3⟩ := in_vals ν
  by_cases hν : ν 0 + ν 1 = ν 2 + ν 3
  · rw [val_pos h _ _ _ hν, val_pos _ _ _ _ (by rw [a0, a1, a2, a3, hν]; ring), ext_in hs, ← mul_neg]
    congr 1
    have e : transfer .p (ν ∘ swapIn) = transfer .p ν := rfl
    rw [e, hS.parallel, ← hS.minus]
    congr 1
    funext y z
    exact inner_p_in (sym_ite hM hL h) (sym_ite hL hM h) hP _ _ _ _ _ _
  · rw [val_neg h _ _ _ hν, val_neg _ _ _ _ (by
      rw [a0, a1, a2, a3]; intro h'; exact hν (by rw [h', add_comm]))]; simp

theorem bubble_p_out (hS : GoodTotal S) (hL : Sym ⟨false, ph, false⟩ L) (hM : Sym ⟨false, ph, false⟩ M) (h : Bool)
    {s : Nat} (hs : s < 2) (α β : Fin 4 → Bool) (ν : Fin 4 → K) :
    (bubble S L M P).val h .p s α ν = -(bubble S L M P).val h .p (1 - s) β (ν ∘ swapOut) := by
  obtain ⟨a0, a1, a2, a3⟩ := out_vals ν
  by_cases hν : ν 0 + ν 1 = ν 2 + ν 3
  · rw [val_pos h _ _ _ hν, val_pos _ _ _ _ (by rw [a0, a1, a2, a3, ← hν]; ring), ext_out hs, ← mul_neg]
    congr 1
    have e : transfer .p (ν ∘ swapOut) = transfer .p ν := by simp only [transfer, a0, a1, add_comm]
    rw [e, ← hS.minus]
    congr 1
    funext y z
    show _ = -inner _ _ _ _ _ _ _ _ _ _
    rw [inner_flip]
    exact inner_p_out (sym_ite hM hL h) _ _ _ _ _ _
  · rw [val_neg h _ _ _ hν, val_neg _ _ _ _ (by
      rw [a0, a1, a2, a3]; intro h'; exact hν (by rw [add_comm, h']))]; simp

/-- From the summand to the bubble. -/
theorem bubble_star (hS : GoodTotal S) {h h' : Bool} {c : Ch} {s : Nat} {α β : Fin 4 → Bool} {ν μ : Fin 4 → K}
    (hν : ν 0 + ν 1 = ν 2 + ν 3 ↔ μ 0 + μ 1 = μ 2 + μ 3)
    (hi : ν 0 + ν 1 = ν 2 + ν 3 →
      S c (transfer c ν) (innerE (if h then M else L) (if h then L else M) P c (ext s ν)) =
      S c (transfer c μ) fun y z => star (innerE (if h' then M else L) (if h' then L else M) P c (ext s μ) y z)) :
    (bubble S L M P).val h c s α ν = star ((bubble S L M P).val h' c s β μ) := by
  by_cases hc : ν 0 + ν 1 = ν 2 + ν 3
  · rw [val_pos h _ _ _ hc, val_pos _ _ _ _ (hν.1 hc), hi hc, star_mul', star_sign, hS.conj]
  · rw [val_neg h _ _ _ hc, val_neg _ _ _ _ (fun h => hc (hν.2 h))]; simp

theorem bubble_conj (hS : GoodTotal S) (hL : Sym ⟨false, ph, false⟩ L) (hM : Sym ⟨false, ph, false⟩ M)
    (hP : GoodPair P) (h : Bool) (c : Ch) {s : Nat} (hs : s < 2) (α β : Fin 4 → Bool) (ν : Fin 4 → K) :
    (bubble S L M P).val h c s α ν =
      star ((bubble S L M P).val (xor h (sideFlip c c inOut)) c s β (fun k => -ν (inOut k))) := by
  have i0 : inOut 0 = 2 := by decide
  have i1 : inOut 1 = 3 := by decide
  have i2 : inOut 2 = 0 := by decide
  have i3 : inOut 3 = 1 := by decide
  refine bubble_star hS ?_ fun hν => ?_
  · rw [i0, i1, i2, i3]
    constructor <;> intro h <;> linear_combination h
  cases c
  · have e1 : sideFlip .a .a inOut = true := by decide
    rw [e1, if_swap, if_swap]
    have e : transfer .a (fun k => -ν (inOut k)) = -transfer .a ν := by
      simp only [transfer, i0, i3]; linear_combination -hν
    rw [e, hS.reverse]
    congr 1
    funext y z
    rw [ext_io hs]
    have := inner_a_conj (sym_ite hM hL h) (sym_ite hL hM h) hP (ext s ν).1 (ext s ν).2.1 (ext s ν).2.2.1
      (ext s ν).2.2.2 (-y) (-z)
    rw [neg_neg, neg_neg] at this
    exact this
  · have e1 : sideFlip .p .p inOut = true := by decide
    rw [e1, if_swap, if_swap]
    have e : transfer .p (fun k => -ν (inOut k)) = -transfer .p ν := by
      simp only [transfer, i0, i1]; linear_combination hν
    rw [e, hS.reverse]
    have hs' : s = 0 ∨ s = 1 := by omega
    rcases hs' with rfl | rfl
    · congr 1
      funext y z
      rw [ext_io hs]
      have := inner_p_conj (sym_ite hM hL h) (sym_ite hL hM h) hP (ext 0 ν).1 (ext 0 ν).2.1 (ext 0 ν).2.2.1
        (ext 0 ν).2.2.2 rfl rfl (-y) (-z)
      rw [neg_neg, neg_neg] at this
      exact this
    · rw [hS.parallel]
      congr 1
      funext y z
      rw [ext_io hs]
      have := inner_p_conj' (sym_ite hM hL h) (sym_ite hL hM h) hP (ext 1 ν).1 (ext 1 ν).2.1 (ext 1 ν).2.2.1
        (ext 1 ν).2.2.2 rfl rfl (-z) (-y)
      rw [neg_neg, neg_neg] at this
      exact this
  · have e1 : sideFlip .t .t inOut = false := by decide
    rw [e1, Bool.xor_false]
    have e : transfer .t (fun k => -ν (inOut k)) = transfer .t ν := by
      simp only [transfer, i1, i3]; ring
    rw [e, hS.reverse, ← hS.channels, hS.exchange, neg_neg, hS.channels]
    congr 1
    funext y z
    rw [ext_io hs]
    have := inner_t_conj (sym_ite hM hL h) (sym_ite hL hM h) hP (ext s ν).1 (ext s ν).2.1 (ext s ν).2.2.1
      (ext s ν).2.2.2 (-z) (-y)
    rw [neg_neg, neg_neg] at this
    exact this

theorem bubble_tr (hS : GoodTotal S) (hL : Sym ⟨false, ph, false⟩ L) (hM : Sym ⟨false, ph, false⟩ M)
    (hP : GoodPair P) (h : Bool) (c : Ch) (s : Nat) (α β : Fin 4 → Bool) (ν : Fin 4 → K) :
    (bubble S L M P).val h c s α ν = star ((bubble S L M P).val h c s β (fun k => -ν k)) := by
  refine bubble_star hS ?_ fun hν => ?_
  · constructor <;> intro h <;> linear_combination -h
  have e : transfer c (fun k => -ν k) = -transfer c ν := by cases c <;> simp only [transfer] <;> ring
  rw [e, hS.reverse]
  congr 1
  funext y z
  have := inner_tr (sym_ite hM hL h) (sym_ite hL hM h) hP c (ext s ν).1 (ext s ν).2.1 (ext s ν).2.2.1
    (ext s ν).2.2.2 (-y) (-z)
  rw [neg_neg, neg_neg] at this
  exact this

/-- C157: if the vertices of a bubble at imaginary frequencies have the crossing, conjugation and time-reversal
symmetries, and so have the pair of propagators and the summation over frequencies, the bubble has them. -/
theorem c157_symmetric (hS : GoodTotal S) (hL : Sym ⟨false, ph, false⟩ L) (hM : Sym ⟨false, ph, false⟩ M)
    (hP : GoodPair P) : Sym ⟨false, ph, false⟩ (bubble S L M P) where
  crossIn h c s α ν hs := by
    simp only [Bool.false_eq_true, if_false, neg_mul, one_mul]
    cases c
    · have e1 : sideFlip .a (crossed .a) swapIn = true := by decide
      rw [e1]
      exact bubble_a_in hS hL hM hP h hs α _ ν
    · have e1 : sideFlip .p (crossed .p) swapIn = false := by decide
      rw [e1, Bool.xor_false]
      exact bubble_p_in hS hL hM hP h hs α _ ν
    · have e1 : sideFlip .t (crossed .t) swapIn = true := by decide
      rw [e1]
      have := bubble_a_in hS hL hM hP (xor h true) (s := 1 - s) (by omega) (α ∘ swapIn) α (ν ∘ swapIn)
      have e2 : 1 - (1 - s) = s := by omega
      have e3 : ∀ {A : Type} (f : Fin 4 → A), (f ∘ swapIn) ∘ swapIn = f := by
        intro A f; funext i; fin_cases i <;> rfl
      have e4 : xor (xor h true) true = h := by simp
      rw [e2, e3, e4] at this
      rw [show crossed .t = Ch.a from rfl, this, neg_neg]
  crossOut h c s α ν hs := by
    simp only [Bool.false_eq_true, if_false, neg_mul, one_mul]
    cases c
    · have e1 : sideFlip .a (crossed .a) swapOut = false := by decide
      rw [e1, Bool.xor_false]
      exact bubble_a_out hS hL hM h hs α _ ν
    · have e1 : sideFlip .p (crossed .p) swapOut = false := by decide
      rw [e1, Bool.xor_false]
      exact bubble_p_out hS hL hM h hs α _ ν
    · have e1 : sideFlip .t (crossed .t) swapOut = false := by decide
      rw [e1, Bool.xor_false]
      have := bubble_a_out (P := P) hS hL hM h (s := 1 - s) (by omega) (α ∘ swapOut) α (ν ∘ swapOut)
      have e2 : 1 - (1 - s) = s := by omega
      have e3 : ∀ {A : Type} (f : Fin 4 → A), (f ∘ swapOut) ∘ swapOut = f := by
        intro A f; funext i; fin_cases i <;> rfl
      rw [e2, e3] at this
      rw [show crossed .t = Ch.a from rfl, this, neg_neg]
  conjK h := by cases h
  conjM _ h c s α ν hs := bubble_conj hS hL hM hP h c hs α _ ν
  ph h := by cases h
  tr _ h c s α ν _ := bubble_tr hS hL hM hP h c s α _ ν
  real := hL.real

end

end Verif.Imag
