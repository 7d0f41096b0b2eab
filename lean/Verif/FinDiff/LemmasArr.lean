import Verif.FinDiff.LemmasMulti
import Verif.MultiArray.Lemmas

namespace Verif.FinDiff
open Verif Verif.Index Verif.MultiArray

theorem cumulLength_getD (ds : List Nat) (k : Nat) (hk : k < ds.length) :
    (cumulLength ds).getD k 0 = (ds.drop (k+1)).prod := by
  induction ds generalizing k with
  | nil => simp at hk
  | cons d ds ih =>
    rw [cumulLength_cons']
    cases k with
    | zero => simp
    | succ k => simpa using ih k (by simpa using hk)

theorem rowMajor_append (a da b db : List Nat) (h : a.length = da.length) :
    rowMajor (a ++ b) (da ++ db) = rowMajor a da * db.prod + rowMajor b db := by
  induction a generalizing da with
  | nil =>
    match da, h with
    | [], _ => simp [rowMajor]
  | cons i a ih =>
    match da, h with
    | d :: da, h =>
      simp only [List.cons_append, rowMajor, ih da (by simpa using h), List.prod_append]
      ring

/-- Row and column of an element in the matrix of `partial_deriv`. -/
theorem rowMajor_axis {is ds : List Nat} (h : InRange is ds) (k : Nat) (hk : k < ds.length) (j : Nat) :
    rowMajor (is.set k j) ds
      = (rowMajor (is.take k) (ds.take k) * ds[k] + j) * (ds.drop (k+1)).prod
        + rowMajor (is.drop (k+1)) (ds.drop (k+1)) := by
  have hl := h.length_eq
  have e1 : is.set k j = is.take k ++ (j :: is.drop (k+1)) := by
    rw [List.set_eq_take_append_cons_drop, if_pos (by omega)]
  have e2 : ds = ds.take k ++ (ds[k] :: ds.drop (k+1)) := by
    rw [List.cons_getElem_drop_succ, List.take_append_drop]
  rw [e1]
  conv_lhs => rw [e2]
  rw [rowMajor_append _ _ _ _ (by simp; omega)]
  simp only [rowMajor, List.prod_cons]
  ring

theorem inRange_drop {is ds : List Nat} (h : InRange is ds) (k : Nat) : InRange (is.drop k) (ds.drop k) := by
  induction h generalizing k with
  | nil => simp [InRange]
  | cons h hs ih =>
    cases k with
    | zero => exact List.Forall₂.cons h hs
    | succ k => simpa using ih k

theorem inRange_take {is ds : List Nat} (h : InRange is ds) (k : Nat) : InRange (is.take k) (ds.take k) := by
  induction h generalizing k with
  | nil => simp [InRange]
  | cons h hs ih =>
    cases k with
    | zero => simp [InRange]
    | succ k => exact List.Forall₂.cons h (ih k)

variable {K W : Type} [Field K] [AddCommGroup W] [Module K W]

/-- Value computed at column `c`, row `r` of the matrix with `dimsR` columns. -/
def colVal (K : Type) {W : Type} [Field K] [AddCommGroup W] [Module K W] (els : List W) (dimsL dimsR r c : Nat) : W :=
  let m := fun c => els.getD (c * dimsL + r) 0
  if c = 0 then (-(3/2) : K) • m 0 + (2 : K) • m 1 + (-(1/2) : K) • m 2
  else if c = dimsR - 1 then (1/2 : K) • m (dimsR-3) + (-2 : K) • m (dimsR-2) + (3/2 : K) • m (dimsR-1)
  else (-(1/2) : K) • m (c-1) + (1/2 : K) • m (c+1)

theorem partialDerivArr_eq (data : MArr W) (hw : data.WF) (iDim : Nat) (hd : iDim < data.len.length)
    (hn : 2 < data.len[iDim]) (hpos : 0 < data.len.prod) :
    partialDerivArr K data iDim = .ok (MArr.mk data.len data.cum ((List.range data.len.prod).map fun k =>
      colVal K data.elems (data.len.drop (iDim+1)).prod ((data.len.take iDim).prod * data.len[iDim])
        (k % (data.len.drop (iDim+1)).prod) (k / (data.len.drop (iDim+1)).prod))) := by
  obtain ⟨h1, h2, h3⟩ := hw
  have hL : data.cum.getD iDim 0 = (data.len.drop (iDim+1)).prod := by rw [h3, cumulLength_getD _ _ hd]
  have hprod : data.len.prod = (data.len.take iDim).prod * data.len[iDim] * (data.len.drop (iDim+1)).prod := by
    conv_lhs => rw [← List.take_append_drop iDim data.len, ← List.cons_getElem_drop_succ (h := hd)]
    rw [List.prod_append, List.prod_cons]; ring
  set L := (data.len.drop (iDim+1)).prod with hLd
  set R := (data.len.take iDim).prod * data.len[iDim] with hRd
  have hLpos : 0 < L := by
    rcases Nat.eq_zero_or_pos L with h | h
    · rw [hprod, h] at hpos; simp at hpos
    · exact h
  have hRpos : 0 < (data.len.take iDim).prod := by
    rcases Nat.eq_zero_or_pos (data.len.take iDim).prod with h | h
    · rw [hprod, hRd, h] at hpos; simp at hpos
    · exact h
  have hR3 : 3 ≤ R := by
    rw [hRd]; calc 3 ≤ 1 * data.len[iDim] := by omega
      _ ≤ _ := Nat.mul_le_mul_right _ hRpos
  have hdiv : data.len.prod / L = R := by rw [hprod, Nat.mul_div_cancel _ hLpos]
  have hrd : ∀ r c, r < L → c < R → rd data.elems (c * L + r) = .ok (data.elems.getD (c * L + r) 0) := by
    intro r c hr hc
    have : c * L + r < data.elems.length := by
      rw [h2, hprod]
      calc c * L + r < c * L + L := by omega
        _ = (c+1) * L := by ring
        _ ≤ R * L := Nat.mul_le_mul_right _ hc
    rw [rd_ok _ _ this]; simp [this]
  unfold partialDerivArr
  rw [if_neg (by omega)]
  rw [if_neg (by simp [hd]; omega)]
  simp only [hL, hdiv]
  rw [mapM_ok (g := fun k => colVal K data.elems L R (k % L) (k / L))]
  · rw [show L * R = data.len.prod by rw [hprod]; ring]; rfl
  · intro k hk
    have hk : k < L * R := by simpa using hk
    have hr : k % L < L := Nat.mod_lt _ hLpos
    have hc : k / L < R := Nat.div_lt_of_lt_mul hk
    unfold colVal
    split_ifs with c0 c1
    · simp only [hrd _ 0 hr (by omega), hrd _ 1 hr (by omega), hrd _ 2 hr (by omega), bind, Except.bind, pure, Except.pure]
    · simp only [hrd _ (R-3) hr (by omega), hrd _ (R-2) hr (by omega), hrd _ (R-1) hr (by omega), bind, Except.bind, pure, Except.pure]
    · simp only [hrd _ (k/L-1) hr (by omega), hrd _ (k/L+1) hr (by omega), bind, Except.bind, pure, Except.pure]

/-- Value at a multi-index whose stencil does not leave the line. -/
theorem colVal_line (data : MArr W) (hw : data.WF) (iDim : Nat) (hd : iDim < data.len.length)
    (hn : 2 < data.len[iDim]) (indx : List Nat) (hi : InRange indx data.len)
    (hin : (0 < indx.getD iDim 0 ∧ indx.getD iDim 0 < data.len[iDim] - 1) ∨ (data.len.take iDim).prod = 1) :
    ∃ out, partialDerivArr K data iDim = .ok out ∧ out.len = data.len ∧
      out.at indx = .ok (threePoint K (lineOf data.elems data.len iDim indx) (indx.getD iDim 0)) := by
  have hw' := hw
  obtain ⟨h1, h2, h3⟩ := hw
  refine ⟨_, partialDerivArr_eq data hw' iDim hd hn (prod_pos_of_inRange hi), rfl, ?_⟩
  have hlen := hi.length_eq
  set c := indx.getD iDim 0 with hc
  have hcn : c < data.len[iDim] := inRange_get hi iDim hd
  set L := (data.len.drop (iDim+1)).prod with hLd
  set lead := rowMajor (indx.take iDim) (data.len.take iDim) with hlead
  set r := rowMajor (indx.drop (iDim+1)) (data.len.drop (iDim+1)) with hr
  have hrL : r < L := rowMajor_lt (inRange_drop hi (iDim+1))
  have hleadlt : lead < (data.len.take iDim).prod := rowMajor_lt (inRange_take hi iDim)
  have hrow : ∀ j, rowMajor (indx.set iDim j) data.len = (lead * data.len[iDim] + j) * L + r :=
    fun j => rowMajor_axis hi iDim hd j
  have hself : rowMajor indx data.len = (lead * data.len[iDim] + c) * L + r := by
    have := hrow c; rwa [hc, set_getD _ _ (by omega)] at this
  have hmod : rowMajor indx data.len % L = r := by
    rw [hself, Nat.mul_comm, Nat.mul_add_mod, Nat.mod_eq_of_lt hrL]
  have hdiv : rowMajor indx data.len / L = lead * data.len[iDim] + c := by
    rw [hself, Nat.mul_comm, Nat.mul_add_div (by omega), Nat.div_eq_of_lt hrL, add_zero]
  have hgetl : ∀ j < data.len[iDim], (lineOf data.elems data.len iDim indx).getD j 0
      = data.elems.getD ((lead * data.len[iDim] + j) * L + r) 0 := by
    intro j hj; rw [← hrow j]; simp [lineOf, hd, hj]
  have hll : (lineOf data.elems data.len iDim indx).length = data.len[iDim] := by simp [lineOf, hd]
  have key : ∀ els : List W, els.length = data.len.prod → ∀ v,
      (MArr.mk data.len data.cum els).at indx = .ok v ↔ els[rowMajor indx data.len]? = some v :=
    fun els he v => at_eq_iff (m := MArr.mk data.len data.cum els) ⟨h1, he, h3⟩ hi v
  rw [key _ (by simp)]
  rw [List.getElem?_map, List.getElem?_range (rowMajor_lt hi), Option.map_some, hmod, hdiv]
  congr 1
  unfold colVal threePoint
  simp only [hll]
  rcases hin with hin | hin
  · have g1 := hgetl (c-1) (by omega)
    have g2 := hgetl (c+1) (by omega)
    have hRbound : (lead + 1) * data.len[iDim] ≤ (data.len.take iDim).prod * data.len[iDim] :=
      Nat.mul_le_mul_right _ hleadlt
    rw [Nat.add_mul, Nat.one_mul] at hRbound
    rw [if_neg (by omega), if_neg (by omega), if_neg (by omega), if_neg (by omega), g1, g2,
      show lead * data.len[iDim] + c - 1 = lead * data.len[iDim] + (c - 1) by omega,
      show lead * data.len[iDim] + c + 1 = lead * data.len[iDim] + (c + 1) by omega]
    module
  · have hl0 : lead = 0 := by omega
    rw [hin, one_mul data.len[iDim], hl0, zero_mul data.len[iDim], zero_add c]
    rw [hl0] at hgetl
    simp only [zero_mul, zero_add] at hgetl
    split_ifs with c0 c1
    · rw [hgetl 0 (by omega), hgetl 1 (by omega), hgetl 2 (by omega)]; module
    · rw [hgetl c (by omega), hgetl (c-1) (by omega), hgetl (c-2) (by omega), c1,
        show data.len[iDim] - 1 - 1 = data.len[iDim] - 2 by omega,
        show data.len[iDim] - 1 - 2 = data.len[iDim] - 3 by omega]; module
    · rw [hgetl (c-1) (by omega), hgetl (c+1) (by omega)]; module

end Verif.FinDiff
