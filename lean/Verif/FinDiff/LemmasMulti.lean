import Verif.FinDiff.Lemmas
import Verif.Index.Lemmas
import Verif.Index.Lemmas2

namespace Verif.FinDiff
open Verif Verif.Index

/-- Row-major position with the last axis split off. -/
theorem rowMajor_snoc (is ds : List Nat) (h : is.length = ds.length) (j n : Nat) :
    rowMajor (is ++ [j]) (ds ++ [n]) = rowMajor is ds * n + j := by
  induction is generalizing ds with
  | nil => 
    match ds, h with
    | [], _ => simp [rowMajor]
  | cons i is ih =>
    match ds, h with
    | d :: ds, h =>
      simp only [List.cons_append, rowMajor, ih ds (by simpa using h), List.prod_append, List.prod_cons,
        List.prod_nil, mul_one]
      ring

theorem cyc_split {α : Type} (l : List α) (k : Nat) (hk : k < l.length) :
    cyc l (k+1) = (l.drop (k+1) ++ l.take k) ++ [l[k]] := by
  unfold cyc
  rw [List.append_assoc, List.take_append_getElem hk]

/-- The rotated position of the element with axis `k` replaced by `j`. -/
theorem rowMajor_line {is ds : List Nat} (h : InRange is ds) (k : Nat) (hk : k < ds.length) (j : Nat) :
    rowMajor (cyc (is.set k j) (k+1)) (cyc ds (k+1))
      = rowMajor (is.drop (k+1) ++ is.take k) (ds.drop (k+1) ++ ds.take k) * ds[k] + j := by
  have hl := h.length_eq
  rw [cyc_split _ k (by simp; omega), cyc_split ds k hk, rowMajor_snoc _ _ (by simp; omega)]
  have e1 : (is.set k j).drop (k+1) = is.drop (k+1) := by rw [List.drop_set_of_lt (by omega)]
  have e2 : (is.set k j).take k = is.take k := by rw [List.take_set_of_le (by omega)]
  rw [e1, e2]; simp

theorem inRange_set {is ds : List Nat} (h : InRange is ds) (k : Nat) (hk : k < ds.length) (j : Nat) (hj : j < ds[k]) :
    InRange (is.set k j) ds := by
  induction h generalizing k with
  | nil => simp at hk
  | cons h hs ih =>
    cases k with
    | zero => exact List.Forall₂.cons hj hs
    | succ k => exact List.Forall₂.cons h (ih k (by simpa using hk) (by simpa using hj))

theorem inRange_get {is ds : List Nat} (h : InRange is ds) (k : Nat) (hk : k < ds.length) :
    is.getD k 0 < ds[k] := by
  induction h generalizing k with
  | nil => simp at hk
  | cons h hs ih =>
    cases k with
    | zero => simpa using h
    | succ k => simpa using ih k (by simpa using hk)

theorem set_getD (is : List Nat) (k : Nat) (hk : k < is.length) : is.set k (is.getD k 0) = is := by
  simp [hk]

/-- A loop that writes the value `v k` to position `p k`, in any order of the iterations. -/
theorem scatter {W : Type} (step : List W → Nat → Res (List W)) (p : Nat → Nat) (v : Nat → W) (N : Nat)
    (hp : ∀ k < N, p k < N) (hinj : ∀ k < N, ∀ k' < N, p k = p k' → k = k')
    (hstep : ∀ k < N, ∀ res : List W, res.length = N → step res k = .ok (res.set (p k) (v k)))
    (order : List Nat) (hlt : ∀ k ∈ order, k < N) (hnd : order.Nodup) (res : List W) (hres : res.length = N) :
    ∃ out, order.foldlM step res = .ok out ∧ out.length = N ∧
      (∀ k ∈ order, out[p k]? = some (v k)) ∧ ∀ m, (∀ k ∈ order, p k ≠ m) → out[m]? = res[m]? := by
  induction order generalizing res with
  | nil => exact ⟨res, rfl, hres, by simp, by simp⟩
  | cons k order ih =>
    rw [List.nodup_cons] at hnd
    have hk := hlt k List.mem_cons_self
    obtain ⟨out, h1, h2, h3, h4⟩ := ih (fun k' hk' => hlt k' (List.mem_cons_of_mem _ hk')) hnd.2
      (res.set (p k) (v k)) (by simpa using hres)
    refine ⟨out, ?_, h2, ?_, ?_⟩
    · rw [List.foldlM_cons, hstep k hk res hres]; exact h1
    · intro k' hk'
      rcases List.mem_cons.mp hk' with rfl | hm
      · rw [h4 _ fun k'' hk'' he => ?_]
        · have := hp k' hk
          simp [hres, this]
        · have := hinj k'' (hlt k'' (List.mem_cons_of_mem _ hk'')) k' hk he
          subst this; exact hnd.1 hk''
      · exact h3 k' hm
    · intro m hm
      rw [h4 m fun k' hk' => hm k' (List.mem_cons_of_mem _ hk'), List.getElem?_set_ne]
      exact hm k List.mem_cons_self

/-- The position of every element in the rotated order. -/
theorem exists_rotated (dims : List Nat) (iDim : Nat) (hd : iDim < dims.length) (k : Nat) (hk : k < dims.prod) :
    ∃ is, InRange is dims ∧ k = rowMajor (cyc is (iDim+1)) (cyc dims (iDim+1)) := by
  obtain ⟨js, -, hjs, e⟩ := getMultIndex_spec k (cyc dims (iDim+1)) (by rw [cyc_length]; omega)
    (by rw [prod_cyc]; exact hk)
  have hl : js.length = dims.length := by rw [hjs.length_eq, cyc_length]
  refine ⟨cyc js (dims.length - (iDim+1)), ?_, ?_⟩
  · have := inRange_cyc hjs (dims.length - (iDim+1))
    rwa [cyc_cyc dims (iDim+1)] at this
  · have := cyc_cyc js (dims.length - (iDim+1))
    rw [hl, show dims.length - (dims.length - (iDim + 1)) = iDim + 1 by omega] at this
    rw [this, e]

section
variable {K W : Type} [Field K] [AddCommGroup W] [Module K W]

/-- Differentiation along an axis acts line by line, for every order of the iterations. -/
theorem partialDerivVec_lines (line : (Nat → Res K) → (Nat → Res W) → Nat → Res W) (minPoints : Nat)
    (data : List W) (xs : List K) (dims : List Nat) (iDim : Nat) (hd : iDim < dims.length)
    (hdata : data.length = dims.prod) (hxs : xs.length = dims[iDim]) (hmin : minPoints ≤ dims[iDim])
    (hloc : ∀ (f f' : Nat → Res W) (jt : Nat), jt < dims[iDim] → (∀ j < dims[iDim], f j = f' j) →
      line (rd xs) f jt = line (rd xs) f' jt)
    (order : List Nat) (horder : order.Perm (List.range dims.prod)) (g : List Nat → W)
    (hg : ∀ indx, InRange indx dims →
      line (rd xs) (rd (lineOf data dims iDim indx)) (indx.getD iDim 0) = .ok (g indx)) :
    ∃ out, partialDerivVec line minPoints data xs dims iDim order = .ok out ∧ out.length = dims.prod ∧
      ∀ indx, InRange indx dims → out[rowMajor indx dims]? = some (g indx) := by
  have e1 : permuteCyclic dims (dims.length - iDim - 1) = some (cyc dims (iDim+1)) := by
    rw [permuteCyclic_eq _ _ (by omega)]; congr 2; omega
  have e2 : ((List.range dims.length).map fun i => if i ≤ iDim then i + dims.length - iDim - 1 else i - iDim - 1)
      = rotPermutation dims.length iDim := by
    unfold rotPermutation
    apply List.map_congr_left
    intro i _
    split_ifs <;> omega
  have e3 : ∀ k, rotateFlatIndexPerm k (cyc dims (iDim+1)) (rotPermutation dims.length iDim)
      = rotateFlatIndex k dims iDim := by
    intro k
    unfold rotateFlatIndex
    rw [if_neg (by omega), dimsRot_eq dims iDim hd]; rfl
  have e4 : (cyc dims (iDim+1)).getLast? = some dims[iDim] := by
    rw [cyc_split dims iDim hd, List.getLast?_concat]
  -- the multi-index behind a rotated position
  choose! M hM using exists_rotated dims iDim hd
  have hrot : ∀ k < dims.prod, rotateFlatIndex k dims iDim = some (rowMajor (M k) dims) := by
    intro k hk
    conv_lhs => rw [(hM k hk).2]
    exact rotateFlatIndex_cyc (hM k hk).1 iDim hd
  have hself : ∀ k < dims.prod, k = rowMajor ((M k).drop (iDim+1) ++ (M k).take iDim)
      (dims.drop (iDim+1) ++ dims.take iDim) * dims[iDim] + (M k).getD iDim 0 := by
    intro k hk
    have hl := (hM k hk).1.length_eq
    have := rowMajor_line (hM k hk).1 iDim hd ((M k).getD iDim 0)
    rw [set_getD _ _ (by omega), ← (hM k hk).2] at this
    exact this
  have hmod : ∀ k < dims.prod, k % dims[iDim] = (M k).getD iDim 0 := by
    intro k hk
    have h := inRange_get (hM k hk).1 iDim hd
    conv_lhs => rw [hself k hk]
    rw [Nat.mul_comm, Nat.mul_add_mod, Nat.mod_eq_of_lt h]
  have hline : ∀ k < dims.prod, ∀ j < dims[iDim],
      rotateFlatIndex (k / dims[iDim] * dims[iDim] + j) dims iDim
        = some (rowMajor ((M k).set iDim j) dims) := by
    intro k hk j hj
    have h := inRange_get (hM k hk).1 iDim hd
    have hdiv : k / dims[iDim] = rowMajor ((M k).drop (iDim+1) ++ (M k).take iDim)
      (dims.drop (iDim+1) ++ dims.take iDim) := by
      conv_lhs => rw [hself k hk]
      rw [Nat.mul_comm, Nat.mul_add_div (by omega), Nat.div_eq_of_lt h, add_zero]
    rw [hdiv, ← rowMajor_line (hM k hk).1 iDim hd j]
    exact rotateFlatIndex_cyc (inRange_set (hM k hk).1 iDim hd j hj) iDim hd
  have hMr : ∀ indx, InRange indx dims → M (rowMajor (cyc indx (iDim+1)) (cyc dims (iDim+1))) = indx := by
    intro indx hi
    have hlt : rowMajor (cyc indx (iDim+1)) (cyc dims (iDim+1)) < dims.prod := by
      have := rowMajor_lt (inRange_cyc hi (iDim+1)); rwa [prod_cyc] at this
    have a := hrot _ hlt
    rw [rotateFlatIndex_cyc hi iDim hd] at a
    have a' := Option.some.inj a
    have b := getMultIndex_rowMajor hi (by omega)
    rw [a', getMultIndex_rowMajor (hM _ hlt).1 (by omega)] at b
    exact Option.some.inj b
  obtain ⟨out, h1, h2, h3, -⟩ := scatter
    (finDiffStep (line (rd xs)) data (cyc dims (iDim+1)) (rotPermutation dims.length iDim) dims[iDim])
    (fun k => rowMajor (M k) dims) (fun k => g (M k)) dims.prod
    (fun k hk => rowMajor_lt (hM k hk).1)
    (fun k hk k' hk' h => by
      have a := getMultIndex_rowMajor (hM k hk).1 (by omega)
      rw [h, getMultIndex_rowMajor (hM k' hk').1 (by omega)] at a
      have b := Option.some.inj a
      rw [(hM k hk).2, (hM k' hk').2, b])
    (fun k hk res hres => by
      have hr := rowMajor_lt (hM k hk).1
      have hg' := hg (M k) (hM k hk).1
      unfold finDiffStep
      rw [hloc _ (rd (lineOf data dims iDim (M k))) _ (by rw [hmod k hk]; exact inRange_get (hM k hk).1 iDim hd),
        hmod k hk, hg', e3, hrot k hk]
      · simp only [optRes, bind, Except.bind, pure, Except.pure]
        rw [if_pos (by omega)]
      · intro j hj
        rw [e3, hline k hk j hj]
        have hlt := rowMajor_lt (inRange_set (hM k hk).1 iDim hd j hj)
        simp only [optRes, bind, Except.bind]
        rw [rd_ok _ _ (by omega), rd_ok _ _ (by simp [lineOf, hd, hj])]
        simp [lineOf, hdata, hlt])
    order (fun k hk => by simpa using horder.mem_iff.mp hk) (horder.nodup_iff.mpr List.nodup_range)
    (List.replicate data.length 0) (by simp [hdata])
  refine ⟨out, ?_, h2, ?_⟩
  · unfold partialDerivVec
    rw [if_neg (by omega), e1]
    simp only
    rw [e2]
    unfold finDiff
    rw [e4]
    simp only
    rw [if_neg (by omega), if_neg (by omega)]
    exact h1
  · intro indx hi
    have hlt : rowMajor (cyc indx (iDim+1)) (cyc dims (iDim+1)) < dims.prod := by
      have := rowMajor_lt (inRange_cyc hi (iDim+1)); rwa [prod_cyc] at this
    have := h3 _ (horder.mem_iff.mpr (by simpa using hlt))
    simpa only [hMr indx hi] using this

end
end Verif.FinDiff
