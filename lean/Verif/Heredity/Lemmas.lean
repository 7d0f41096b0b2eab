import Verif.Heredity.Spec

namespace Verif.Heredity
open Verif.Symmetries
open Verif.Freqs (Ch)

theorem comp_swapIn {A : Type} (a b c d : A) : ![a, b, c, d] ∘ swapIn = ![a, b, d, c] := by
  funext i; fin_cases i <;> rfl
theorem comp_swapOut {A : Type} (a b c d : A) : ![a, b, c, d] ∘ swapOut = ![b, a, c, d] := by
  funext i; fin_cases i <;> rfl
theorem comp_inOut {A : Type} (a b c d : A) : ![a, b, c, d] ∘ inOut = ![c, d, a, b] := by
  funext i; fin_cases i <;> rfl
theorem neg_vec (a b c d : ℝ) : (fun k => -(![a, b, c, d] k)) = ![-a, -b, -c, -d] := by
  funext i; fin_cases i <;> rfl

theorem star_sg (b : Bool) : star (sg b) = sg b := by cases b <;> simp [sg]

theorem sg_sq (b : Bool) : sg b * sg b = 1 := by cases b <;> simp [sg]

theorem conjSign_sg (a b c d : Bool) : ((conjSign false ![a, b, c, d] : ℤ) : ℂ) = -(sg a * sg b * sg c * sg d) := by
  cases a <;> cases b <;> cases c <;> cases d <;> simp [conjSign, twos, sg]

section
variable {ph : Bool} {T L R : Vertex ℝ ℂ} {P : Pair}

theorem legVal_cin (hT : Sym ⟨true, ph, false⟩ T) (h : Bool) (c : Ch) (o1 o2 i1 i2 : Leg) :
    legVal T h c o1 o2 i1 i2 = -legVal T (xor h (sideFlip c (crossed c) swapIn)) (crossed c) o1 o2 i2 i1 := by
  have e0 := hT.crossIn h c 0 ![o1.k, o2.k, i1.k, i2.k] ![o1.e, o2.e, i1.e, i2.e] (by norm_num)
  have e1 := hT.crossIn h c 1 ![o1.k, o2.k, i1.k, i2.k] ![o1.e, o2.e, i1.e, i2.e] (by norm_num)
  rw [comp_swapIn, comp_swapIn] at e0 e1
  unfold legVal
  rw [e0, e1]
  simp only [Bool.false_eq_true, if_false, tsub_zero, tsub_self, neg_mul, one_mul, neg_add, add_comm]
  congr 1 <;> split_ifs <;> simp

theorem legVal_cout (hT : Sym ⟨true, ph, false⟩ T) (h : Bool) (c : Ch) (o1 o2 i1 i2 : Leg) :
    legVal T h c o1 o2 i1 i2 = -legVal T (xor h (sideFlip c (crossed c) swapOut)) (crossed c) o2 o1 i1 i2 := by
  have e0 := hT.crossOut h c 0 ![o1.k, o2.k, i1.k, i2.k] ![o1.e, o2.e, i1.e, i2.e] (by norm_num)
  have e1 := hT.crossOut h c 1 ![o1.k, o2.k, i1.k, i2.k] ![o1.e, o2.e, i1.e, i2.e] (by norm_num)
  rw [comp_swapOut, comp_swapOut] at e0 e1
  unfold legVal
  rw [e0, e1]
  simp only [Bool.false_eq_true, if_false, tsub_zero, tsub_self, neg_mul, one_mul, neg_add, add_comm]
  congr 1 <;> split_ifs <;> simp_all

theorem legVal_conj (hT : Sym ⟨true, ph, false⟩ T) (h : Bool) (c : Ch) (o1 o2 i1 i2 : Leg) :
    legVal T h c o1 o2 i1 i2 = -(sg o1.k * sg o2.k * sg i1.k * sg i2.k) *
      star (legVal T (xor h (sideFlip c c inOut)) c i1 i2 o1 o2) := by
  have e0 := hT.conjK rfl h c 0 ![o1.k, o2.k, i1.k, i2.k] ![o1.e, o2.e, i1.e, i2.e] (by norm_num)
  have e1 := hT.conjK rfl h c 1 ![o1.k, o2.k, i1.k, i2.k] ![o1.e, o2.e, i1.e, i2.e] (by norm_num)
  rw [comp_inOut, comp_inOut, conjSign_sg] at e0 e1
  unfold legVal
  rw [e0, e1]
  simp only [star_add, apply_ite (star : ℂ → ℂ), star_zero, mul_add, mul_ite, mul_zero]
  congr 1
  · simp only [eq_comm]
  · by_cases h1 : o1.s = i2.s <;> by_cases h2 : o2.s = i1.s <;> simp [h1, h2, eq_comm]

theorem legVal_neg (T : Vertex ℝ ℂ) (h : Bool) (c : Ch) (o1 o2 i1 i2 : Leg) :
    legVal T h c o1.neg o2.neg i1.neg i2.neg =
      (if o1.s = i1.s ∧ o2.s = i2.s then
        T.val h c 0 ![o1.k, o2.k, i1.k, i2.k] ![-o1.e, -o2.e, -i1.e, -i2.e] else 0) +
      (if o1.s = i2.s ∧ o2.s = i1.s then
        T.val h c 1 ![o1.k, o2.k, i1.k, i2.k] ![-o1.e, -o2.e, -i1.e, -i2.e] else 0) := rfl

theorem legVal_ph (hT : Sym ⟨true, true, false⟩ T) (h : Bool) (c : Ch) (o1 o2 i1 i2 : Leg) :
    legVal T h c o1 o2 i1 i2 = -(sg o1.k * sg o2.k * sg i1.k * sg i2.k) *
      star (legVal T h c o1.neg o2.neg i1.neg i2.neg) := by
  have e0 := hT.ph rfl rfl h c 0 ![o1.k, o2.k, i1.k, i2.k] ![o1.e, o2.e, i1.e, i2.e] (by norm_num)
  have e1 := hT.ph rfl rfl h c 1 ![o1.k, o2.k, i1.k, i2.k] ![o1.e, o2.e, i1.e, i2.e] (by norm_num)
  rw [neg_vec, conjSign_sg] at e0 e1
  rw [legVal_neg]
  unfold legVal
  rw [e0, e1]
  simp only [star_add, mul_add]
  congr 1
  · by_cases h1 : o1.s = i1.s ∧ o2.s = i2.s
    · rw [if_pos h1, if_pos h1]
    · rw [if_neg h1, if_neg h1]; simp
  · by_cases h1 : o1.s = i2.s ∧ o2.s = i1.s
    · rw [if_pos h1, if_pos h1]
    · rw [if_neg h1, if_neg h1]; simp

theorem legVal_flip (T : Vertex ℝ ℂ) (h : Bool) (c : Ch) (o1 o2 i1 i2 : Leg) :
    legVal T h c o1.flip o2.flip i1.flip i2.flip = legVal T h c o1 o2 i1 i2 := by
  simp [legVal, Leg.flip]

/-! ### Relabelling of the lines -/

/-- Exchange of the two lines. -/
def exch : Lines ≃ Lines where
  toFun q := ⟨q.v, q.u, q.y1, q.y0, q.y3, q.y2⟩
  invFun q := ⟨q.v, q.u, q.y1, q.y0, q.y3, q.y2⟩
  left_inv _ := rfl
  right_inv _ := rfl

/-- Exchange of the ends of both lines. -/
def turn : Lines ≃ Lines where
  toFun q := ⟨q.u, q.v, q.y2, q.y3, q.y0, q.y1⟩
  invFun q := ⟨q.u, q.v, q.y2, q.y3, q.y0, q.y1⟩
  left_inv _ := rfl
  right_inv _ := rfl

/-- Exchange of the ends of both lines and of the lines. -/
def turnExch : Lines ≃ Lines where
  toFun q := ⟨q.v, q.u, q.y3, q.y2, q.y1, q.y0⟩
  invFun q := ⟨q.v, q.u, q.y3, q.y2, q.y1, q.y0⟩
  left_inv _ := rfl
  right_inv _ := rfl

/-- Change of the spins. -/
def flipS : Lines ≃ Lines where
  toFun q := ⟨!q.u, !q.v, q.y0, q.y1, q.y2, q.y3⟩
  invFun q := ⟨!q.u, !q.v, q.y0, q.y1, q.y2, q.y3⟩
  left_inv q := by cases q; simp
  right_inv q := by cases q; simp

theorem inner_flip (L R : Vertex ℝ ℂ) (P : Pair) (c : Ch) (o1 o2 i1 i2 : Leg) (y z : ℝ) :
    inner L R P c o1.flip o2.flip i1.flip i2.flip y z = inner L R P c o1 o2 i1 i2 y z := by
  unfold inner
  refine (Fintype.sum_equiv flipS _ _ fun q => ?_).symm
  cases c
  · simp only [term, flipS, Equiv.coe_fn_mk]
    rw [← legVal_flip L, ← legVal_flip R]; rfl
  · simp only [term, flipS, Equiv.coe_fn_mk]
    rw [← legVal_flip L, ← legVal_flip R]
    simp [Leg.flip]
  · simp only [term, flipS, Equiv.coe_fn_mk]
    rw [← legVal_flip L, ← legVal_flip R]; rfl

/-- Exchange of the incoming legs, channel `a`. -/
theorem inner_a_in (hL : Sym ⟨true, ph, false⟩ L) (hR : Sym ⟨true, ph, false⟩ R) (hP : GoodPair ph P)
    (o1 o2 i1 i2 : Leg) (y z : ℝ) :
    inner L R P .a o1 o2 i1 i2 y z = inner R L P .t o1 o2 i2 i1 z y := by
  unfold inner
  refine Fintype.sum_equiv exch _ _ fun q => ?_
  simp only [term, exch, Equiv.coe_fn_mk]
  rw [legVal_cin hL, legVal_cin hR, hP.swap]
  have e1 : sideFlip .a (crossed .a) swapIn = true := by decide
  rw [e1]
  simp only [crossed, Bool.xor_true, Bool.not_true, Bool.not_false]
  ring

/-- Exchange of the outgoing legs, channel `a`. -/
theorem inner_a_out (hL : Sym ⟨true, ph, false⟩ L) (hR : Sym ⟨true, ph, false⟩ R)
    (o1 o2 i1 i2 : Leg) (y z : ℝ) :
    inner L R P .a o1 o2 i1 i2 y z = inner L R P .t o2 o1 i1 i2 y z := by
  unfold inner
  refine Fintype.sum_congr _ _ fun q => ?_
  simp only [term]
  rw [legVal_cout hL, legVal_cout hR]
  have e1 : sideFlip .a (crossed .a) swapOut = false := by decide
  rw [e1]
  simp only [crossed, Bool.xor_false]
  ring

/-- Exchange of the incoming legs, channel `p`. -/
theorem inner_p_in (hL : Sym ⟨true, ph, false⟩ L) (hR : Sym ⟨true, ph, false⟩ R) (hP : GoodPair ph P)
    (o1 o2 i1 i2 : Leg) (y z : ℝ) :
    inner L R P .p o1 o2 i1 i2 y z = -inner L R P .p o1 o2 i2 i1 z y := by
  unfold inner
  rw [← Finset.sum_neg_distrib]
  refine Fintype.sum_equiv exch _ _ fun q => ?_
  simp only [term, exch, Equiv.coe_fn_mk]
  rw [legVal_cin hL, legVal_cin hR, legVal_cout hR, hP.swap]
  have e1 : sideFlip .p (crossed .p) swapIn = false := by decide
  have e2 : sideFlip .p (crossed .p) swapOut = false := by decide
  simp only [crossed] at e1 e2 ⊢
  rw [e1, e2]
  simp only [Bool.xor_false, and_comm]
  split_ifs <;> ring

/-- Exchange of the outgoing legs, channel `p`. -/
theorem inner_p_out (hL : Sym ⟨true, ph, false⟩ L) (o1 o2 i1 i2 : Leg) (y z : ℝ) :
    inner L R P .p o1 o2 i1 i2 y z = -inner L R P .p o2 o1 i1 i2 y z := by
  unfold inner
  rw [← Finset.sum_neg_distrib]
  refine Fintype.sum_congr _ _ fun q => ?_
  simp only [term]
  rw [legVal_cout hL]
  have e2 : sideFlip .p (crossed .p) swapOut = false := by decide
  simp only [crossed] at e2 ⊢
  rw [e2]
  simp only [Bool.xor_false]
  split_ifs <;> ring

/-- Conjugation, channel `a`. -/
theorem inner_a_conj (hL : Sym ⟨true, ph, false⟩ L) (hR : Sym ⟨true, ph, false⟩ R) (hP : GoodPair ph P)
    (o1 o2 i1 i2 : Leg) (y z : ℝ) :
    inner L R P .a o1 o2 i1 i2 y z = sg o1.k * sg o2.k * sg i1.k * sg i2.k *
      star (inner R L P .a i1 i2 o1 o2 y z) := by
  unfold inner
  rw [star_sum, Finset.mul_sum]
  refine Fintype.sum_equiv turn _ _ fun q => ?_
  simp only [term, turn, Equiv.coe_fn_mk]
  rw [legVal_conj hL, legVal_conj hR]
  have e1 : sideFlip .a .a inOut = true := by decide
  rw [e1]
  simp only [Bool.xor_true, Bool.not_true, Bool.not_false, star_mul']
  rw [hP.conj]
  ring

/-- Conjugation, channel `t`. -/
theorem inner_t_conj (hL : Sym ⟨true, ph, false⟩ L) (hR : Sym ⟨true, ph, false⟩ R) (hP : GoodPair ph P)
    (o1 o2 i1 i2 : Leg) (y z : ℝ) :
    inner L R P .t o1 o2 i1 i2 y z = sg o1.k * sg o2.k * sg i1.k * sg i2.k *
      star (inner L R P .t i1 i2 o1 o2 z y) := by
  unfold inner
  rw [star_sum, Finset.mul_sum]
  refine Fintype.sum_equiv turnExch _ _ fun q => ?_
  simp only [term, turnExch, Equiv.coe_fn_mk]
  rw [legVal_conj hL, legVal_conj hR]
  have e1 : sideFlip .t .t inOut = false := by decide
  rw [e1]
  simp only [Bool.xor_false, star_mul']
  rw [hP.conj, hP.swap]
  ring

/-- Conjugation, channel `p`, spins passing straight. -/
theorem inner_p_conj (hL : Sym ⟨true, ph, false⟩ L) (hR : Sym ⟨true, ph, false⟩ R) (hP : GoodPair ph P)
    (o1 o2 i1 i2 : Leg) (h1 : o1.s = i1.s) (h2 : o2.s = i2.s) (y z : ℝ) :
    inner L R P .p o1 o2 i1 i2 y z = sg o1.k * sg o2.k * sg i1.k * sg i2.k *
      star (inner R L P .p i1 i2 o1 o2 y z) := by
  unfold inner
  rw [star_sum, Finset.mul_sum]
  refine Fintype.sum_equiv turn _ _ fun q => ?_
  simp only [term, turn, Equiv.coe_fn_mk, h1, h2]
  rw [legVal_conj hL, legVal_conj hR]
  have e1 : sideFlip .p .p inOut = true := by decide
  rw [e1]
  simp only [Bool.xor_true, Bool.not_true, Bool.not_false]
  split_ifs
  · simp only [star_mul']
    rw [hP.conj]
    ring
  · simp

/-- Conjugation, channel `p`, spins passing crosswise. -/
theorem inner_p_conj' (hL : Sym ⟨true, ph, false⟩ L) (hR : Sym ⟨true, ph, false⟩ R) (hP : GoodPair ph P)
    (o1 o2 i1 i2 : Leg) (h1 : o1.s = i2.s) (h2 : o2.s = i1.s) (y z : ℝ) :
    inner L R P .p o1 o2 i1 i2 y z = sg o1.k * sg o2.k * sg i1.k * sg i2.k *
      star (inner R L P .p i1 i2 o1 o2 z y) := by
  rw [inner_p_in hL hR hP, inner_p_conj hL hR hP o1 o2 i2 i1 h1 h2, inner_p_out hR, star_neg]
  ring

/-- Particle-hole symmetry. -/
theorem inner_ph (hL : Sym ⟨true, true, false⟩ L) (hR : Sym ⟨true, true, false⟩ R) (hP : GoodPair true P)
    (c : Ch) (o1 o2 i1 i2 : Leg) (y z : ℝ) :
    inner L R P c o1 o2 i1 i2 y z = sg o1.k * sg o2.k * sg i1.k * sg i2.k *
      star (inner L R P c o1.neg o2.neg i1.neg i2.neg (-y) (-z)) := by
  unfold inner
  rw [star_sum, Finset.mul_sum]
  refine Fintype.sum_congr _ _ fun q => ?_
  cases c
  · simp only [term]
    rw [legVal_ph hL, legVal_ph hR]
    simp only [star_mul', Leg.neg]
    rw [hP.ph rfl, neg_neg, neg_neg]
    ring
  · have e : term L R P .p o1.neg o2.neg i1.neg i2.neg (-y) (-z) q = if q.u = i1.s ∧ q.v = i2.s then
        legVal L false .p o1.neg o2.neg ⟨q.u, q.y0, -y⟩ ⟨q.v, q.y1, -z⟩ *
        P q.y0 q.y1 q.y2 q.y3 (-y) (-z) * legVal R true .p ⟨q.u, q.y2, -y⟩ ⟨q.v, q.y3, -z⟩ i1.neg i2.neg else 0 := rfl
    rw [e]
    simp only [term]
    rw [legVal_ph hL, legVal_ph hR]
    simp only [Leg.neg]
    by_cases hq : q.u = i1.s ∧ q.v = i2.s
    · rw [if_pos hq, if_pos hq]
      simp only [star_mul']
      rw [hP.ph rfl, neg_neg, neg_neg]
      ring
    · rw [if_neg hq, if_neg hq]; simp
  · simp only [term]
    rw [legVal_ph hL, legVal_ph hR]
    simp only [star_mul', Leg.neg]
    rw [hP.ph rfl, neg_neg, neg_neg]
    ring

end

end Verif.Heredity
