import Verif.Imag.Spec

namespace Verif.Imag
open Verif.Symmetries
open Verif.Freqs (Ch)

section
variable {K R : Type} [CommRing K] [CommRing R] [StarRing R]

theorem comp_swapIn {A : Type} (a b c d : A) : ![a, b, c, d] ∘ swapIn = ![a, b, d, c] := by
  funext i; fin_cases i <;> rfl
theorem comp_swapOut {A : Type} (a b c d : A) : ![a, b, c, d] ∘ swapOut = ![b, a, c, d] := by
  funext i; fin_cases i <;> rfl
theorem neg_inOut (a b c d : K) : (fun k => -(![a, b, c, d] (inOut k))) = ![-c, -d, -a, -b] := by
  funext i; fin_cases i <;> rfl
theorem neg_vec (a b c d : K) : (fun k => -(![a, b, c, d] k)) = ![-a, -b, -c, -d] := by
  funext i; fin_cases i <;> rfl

theorem star_if (p : Prop) [Decidable p] (x : R) : star (if p then x else 0) = if p then star x else 0 := by
  split_ifs <;> simp

variable {ph : Bool} {T L M : Vertex K R} {P : K → K → R}

theorem legVal_cin (hT : Sym ⟨false, ph, false⟩ T) (h : Bool) (c : Ch) (o1 o2 i1 i2 : Leg K) :
    legVal T h c o1 o2 i1 i2 = -legVal T (xor h (sideFlip c (crossed c) swapIn)) (crossed c) o1 o2 i2 i1 := by
  have e0 := hT.crossIn h c 0 k0 ![o1.e, o2.e, i1.e, i2.e] (by norm_num)
  have e1 := hT.crossIn h c 1 k0 ![o1.e, o2.e, i1.e, i2.e] (by norm_num)
  rw [comp_swapIn] at e0 e1
  rw [show k0 ∘ swapIn = k0 from rfl] at e0 e1
  unfold legVal
  rw [e0, e1]
  simp only [Bool.false_eq_true, if_false, tsub_zero, tsub_self, neg_mul, one_mul, neg_add, add_comm]
  congr 1 <;> split_ifs <;> simp

theorem legVal_cout (hT : Sym ⟨false, ph, false⟩ T) (h : Bool) (c : Ch) (o1 o2 i1 i2 : Leg K) :
    legVal T h c o1 o2 i1 i2 = -legVal T (xor h (sideFlip c (crossed c) swapOut)) (crossed c) o2 o1 i1 i2 := by
  have e0 := hT.crossOut h c 0 k0 ![o1.e, o2.e, i1.e, i2.e] (by norm_num)
  have e1 := hT.crossOut h c 1 k0 ![o1.e, o2.e, i1.e, i2.e] (by norm_num)
  rw [comp_swapOut] at e0 e1
  rw [show k0 ∘ swapOut = k0 from rfl] at e0 e1
  unfold legVal
  rw [e0, e1]
  simp only [Bool.false_eq_true, if_false, tsub_zero, tsub_self, neg_mul, one_mul, neg_add, add_comm]
  congr 1 <;> split_ifs <;> simp_all

theorem legVal_neg (T : Vertex K R) (h : Bool) (c : Ch) (o1 o2 i1 i2 : Leg K) :
    legVal T h c o1.neg o2.neg i1.neg i2.neg =
      (if o1.s = i1.s ∧ o2.s = i2.s then T.val h c 0 k0 ![-o1.e, -o2.e, -i1.e, -i2.e] else 0) +
      (if o1.s = i2.s ∧ o2.s = i1.s then T.val h c 1 k0 ![-o1.e, -o2.e, -i1.e, -i2.e] else 0) := rfl

theorem legVal_conj (hT : Sym ⟨false, ph, false⟩ T) (h : Bool) (c : Ch) (o1 o2 i1 i2 : Leg K) :
    legVal T h c o1 o2 i1 i2 = star (legVal T (xor h (sideFlip c c inOut)) c i1.neg i2.neg o1.neg o2.neg) := by
  have e0 := hT.conjM rfl h c 0 k0 ![o1.e, o2.e, i1.e, i2.e] (by norm_num)
  have e1 := hT.conjM rfl h c 1 k0 ![o1.e, o2.e, i1.e, i2.e] (by norm_num)
  rw [neg_inOut] at e0 e1
  rw [show k0 ∘ inOut = k0 from rfl] at e0 e1
  rw [legVal_neg]
  unfold legVal
  rw [e0, e1]
  simp only [star_add, star_if]
  congr 1
  · simp only [eq_comm]
  · by_cases h1 : o1.s = i2.s <;> by_cases h2 : o2.s = i1.s <;> simp [h1, h2, eq_comm]

theorem legVal_tr (hT : Sym ⟨false, ph, false⟩ T) (h : Bool) (c : Ch) (o1 o2 i1 i2 : Leg K) :
    legVal T h c o1 o2 i1 i2 = star (legVal T h c o1.neg o2.neg i1.neg i2.neg) := by
  have e0 := hT.tr rfl h c 0 k0 ![o1.e, o2.e, i1.e, i2.e] (by norm_num)
  have e1 := hT.tr rfl h c 1 k0 ![o1.e, o2.e, i1.e, i2.e] (by norm_num)
  rw [neg_vec] at e0 e1
  rw [legVal_neg]
  unfold legVal
  rw [e0, e1]
  simp only [star_add, star_if]

theorem legVal_flip (T : Vertex K R) (h : Bool) (c : Ch) (o1 o2 i1 i2 : Leg K) :
    legVal T h c o1.flip o2.flip i1.flip i2.flip = legVal T h c o1 o2 i1 i2 := by
  simp [legVal, Leg.flip]

/-- Exchange of the spins of the two lines. -/
def exch : Bool × Bool ≃ Bool × Bool := Equiv.prodComm Bool Bool

/-- Change of the spins. -/
def flipS : Bool × Bool ≃ Bool × Bool where
  toFun q := (!q.1, !q.2)
  invFun q := (!q.1, !q.2)
  left_inv q := by cases q; simp
  right_inv q := by cases q; simp

theorem inner_flip (L M : Vertex K R) (P : K → K → R) (c : Ch) (o1 o2 i1 i2 : Leg K) (y z : K) :
    inner L M P c o1.flip o2.flip i1.flip i2.flip y z = inner L M P c o1 o2 i1 i2 y z := by
  unfold inner
  refine (Fintype.sum_equiv flipS _ _ fun q => ?_).symm
  cases c
  · simp only [term, flipS, Equiv.coe_fn_mk]
    rw [← legVal_flip L, ← legVal_flip M]; rfl
  · simp only [term, flipS, Equiv.coe_fn_mk]
    rw [← legVal_flip L, ← legVal_flip M]
    simp [Leg.flip]
  · simp only [term, flipS, Equiv.coe_fn_mk]
    rw [← legVal_flip L, ← legVal_flip M]; rfl

/-- Exchange of the incoming legs, channel `a`. -/
theorem inner_a_in (hL : Sym ⟨false, ph, false⟩ L) (hM : Sym ⟨false, ph, false⟩ M) (hP : GoodPair P)
    (o1 o2 i1 i2 : Leg K) (y z : K) :
    inner L M P .a o1 o2 i1 i2 y z = inner M L P .t o1 o2 i2 i1 z y := by
  unfold inner
  refine Fintype.sum_equiv exch _ _ fun q => ?_
  simp only [term, exch, Equiv.prodComm_apply, Prod.fst_swap, Prod.snd_swap]
  rw [legVal_cin hL, legVal_cin hM, hP.swap]
  have e1 : sideFlip .a (crossed .a) swapIn = true := by decide
  rw [e1]
  simp only [crossed, Bool.xor_true, Bool.not_true, Bool.not_false]
  ring

/-- Exchange of the outgoing legs, channel `a`. -/
theorem inner_a_out (hL : Sym ⟨false, ph, false⟩ L) (hM : Sym ⟨false, ph, false⟩ M)
    (o1 o2 i1 i2 : Leg K) (y z : K) :
    inner L M P .a o1 o2 i1 i2 y z = inner L M P .t o2 o1 i1 i2 y z := by
  unfold inner
  refine Fintype.sum_congr _ _ fun q => ?_
  simp only [term]
  rw [legVal_cout hL, legVal_cout hM]
  have e1 : sideFlip .a (crossed .a) swapOut = false := by decide
  rw [e1]
  simp only [crossed, Bool.xor_false]
  ring

/-- Exchange of the incoming legs, channel `p`. -/
theorem inner_p_in (hL : Sym ⟨false, ph, false⟩ L) (hM : Sym ⟨false, ph, false⟩ M) (hP : GoodPair P)
    (o1 o2 i1 i2 : Leg K) (y z : K) :
    inner L M P .p o1 o2 i1 i2 y z = -inner L M P .p o1 o2 i2 i1 z y := by
  unfold inner
  rw [← Finset.sum_neg_distrib]
  refine Fintype.sum_equiv exch _ _ fun q => ?_
  simp only [term, exch, Equiv.prodComm_apply, Prod.fst_swap, Prod.snd_swap]
  rw [legVal_cin hL, legVal_cin hM, legVal_cout hM, hP.swap]
  have e1 : sideFlip .p (crossed .p) swapIn = false := by decide
  have e2 : sideFlip .p (crossed .p) swapOut = false := by decide
  simp only [crossed] at e1 e2 ⊢
  rw [e1, e2]
  simp only [Bool.xor_false, and_comm]
  split_ifs <;> ring

/-- Exchange of the outgoing legs, channel `p`. -/
theorem inner_p_out (hL : Sym ⟨false, ph, false⟩ L) (o1 o2 i1 i2 : Leg K) (y z : K) :
    inner L M P .p o1 o2 i1 i2 y z = -inner L M P .p o2 o1 i1 i2 y z := by
  unfold inner
  rw [← Finset.sum_neg_distrib]
  refine Fintype.sum_congr _ _ fun q => ?_
  simp only [term]
  rw [legVal_cout hL]
  have e2 : sideFlip .p (crossed .p) swapOut = false := by decide
  simp only [crossed] at e2 ⊢
  rw [e2]
  simp only [Bool.xor_false]
  split_ifs <;> ring

theorem star_term_p (L M : Vertex K R) (P : K → K → R) (o1 o2 i1 i2 : Leg K) (y z : K) (u v : Bool) :
    star (term L M P .p o1 o2 i1 i2 y z u v) = if u = i1.s ∧ v = i2.s then
      star (legVal L false .p o1 o2 ⟨u, y⟩ ⟨v, z⟩) * star (P y z) * star (legVal M true .p ⟨u, y⟩ ⟨v, z⟩ i1 i2)
      else 0 := by
  simp only [term, star_if, star_mul']

/-- Conjugation, channel `a`. -/
theorem inner_a_conj (hL : Sym ⟨false, ph, false⟩ L) (hM : Sym ⟨false, ph, false⟩ M) (hP : GoodPair P)
    (o1 o2 i1 i2 : Leg K) (y z : K) :
    inner L M P .a o1 o2 i1 i2 y z = star (inner M L P .a i1.neg i2.neg o1.neg o2.neg (-y) (-z)) := by
  unfold inner
  rw [star_sum]
  refine Fintype.sum_congr _ _ fun q => ?_
  simp only [term]
  rw [legVal_conj hL, legVal_conj hM]
  have e1 : sideFlip .a .a inOut = true := by decide
  rw [e1]
  simp only [Bool.xor_true, Bool.not_true, Bool.not_false, star_mul', Leg.neg]
  rw [hP.conj, neg_neg, neg_neg]
  ring

/-- Conjugation, channel `t`. -/
theorem inner_t_conj (hL : Sym ⟨false, ph, false⟩ L) (hM : Sym ⟨false, ph, false⟩ M) (hP : GoodPair P)
    (o1 o2 i1 i2 : Leg K) (y z : K) :
    inner L M P .t o1 o2 i1 i2 y z = star (inner L M P .t i1.neg i2.neg o1.neg o2.neg (-z) (-y)) := by
  unfold inner
  rw [star_sum]
  refine Fintype.sum_equiv exch _ _ fun q => ?_
  simp only [term, exch, Equiv.prodComm_apply, Prod.fst_swap, Prod.snd_swap]
  rw [legVal_conj hL, legVal_conj hM]
  have e1 : sideFlip .t .t inOut = false := by decide
  rw [e1]
  simp only [Bool.xor_false, star_mul', Leg.neg]
  rw [hP.conj, hP.swap, neg_neg, neg_neg]

/-- Conjugation, channel `p`, spins passing straight. -/
theorem inner_p_conj (hL : Sym ⟨false, ph, false⟩ L) (hM : Sym ⟨false, ph, false⟩ M) (hP : GoodPair P)
    (o1 o2 i1 i2 : Leg K) (h1 : o1.s = i1.s) (h2 : o2.s = i2.s) (y z : K) :
    inner L M P .p o1 o2 i1 i2 y z = star (inner M L P .p i1.neg i2.neg o1.neg o2.neg (-y) (-z)) := by
  unfold inner
  rw [star_sum]
  refine Fintype.sum_congr _ _ fun q => ?_
  rw [star_term_p]
  simp only [term]
  rw [legVal_conj hL, legVal_conj hM]
  have e1 : sideFlip .p .p inOut = true := by decide
  rw [e1]
  simp only [Bool.xor_true, Bool.not_true, Bool.not_false, Leg.neg, h1, h2]
  rw [hP.conj, neg_neg, neg_neg]
  split_ifs
  · ring
  · rfl

/-- Conjugation, channel `p`, spins passing crosswise. -/
theorem inner_p_conj' (hL : Sym ⟨false, ph, false⟩ L) (hM : Sym ⟨false, ph, false⟩ M) (hP : GoodPair P)
    (o1 o2 i1 i2 : Leg K) (h1 : o1.s = i2.s) (h2 : o2.s = i1.s) (y z : K) :
    inner L M P .p o1 o2 i1 i2 y z = star (inner M L P .p i1.neg i2.neg o1.neg o2.neg (-z) (-y)) := by
  rw [inner_p_in hL hM hP, inner_p_conj hL hM hP o1 o2 i2 i1 h1 h2, inner_p_out hM, star_neg, neg_neg]

/-- Time reversal. -/
theorem inner_tr (hL : Sym ⟨false, ph, false⟩ L) (hM : Sym ⟨false, ph, false⟩ M) (hP : GoodPair P)
    (c : Ch) (o1 o2 i1 i2 : Leg K) (y z : K) :
    inner L M P c o1 o2 i1 i2 y z = star (inner L M P c o1.neg o2.neg i1.neg i2.neg (-y) (-z)) := by
  unfold inner
  rw [star_sum]
  refine Fintype.sum_congr _ _ fun q => ?_
  cases c
  · simp only [term]
    rw [legVal_tr hL, legVal_tr hM]
    simp only [star_mul', Leg.neg]
    rw [hP.conj, neg_neg, neg_neg]
  · rw [star_term_p]
    simp only [term]
    rw [legVal_tr hL, legVal_tr hM]
    simp only [Leg.neg]
    rw [hP.conj, neg_neg, neg_neg]
    by_cases hq : q.1 = i1.s ∧ q.2 = i2.s
    · rw [if_pos hq]; exact (if_pos hq).symm
    · rw [if_neg hq]; exact (if_neg hq).symm
  · simp only [term]
    rw [legVal_tr hL, legVal_tr hM]
    simp only [star_mul', Leg.neg]
    rw [hP.conj, neg_neg, neg_neg]

end

end Verif.Imag
