import Verif.Collapse.Lemmas2
import Mathlib.Tactic.Linarith
import Mathlib.Tactic.IntervalCases
import Mathlib.Tactic.NormNum

/-! C10, C44: reductions over axes. -/
namespace Verif.Collapse
open Verif Verif.Index

/-- C44.  Each entry of the collapsed array is the reduction of exactly the elements of the corresponding
slice, each taken once, for every rank, shape, choice of kept axes (in any order) and thread schedule. -/
theorem c44_collapse [Zero α] (op : α → α → α) (data : List α) (dims axes : List Nat) (order : List Nat)
    (h1 : 1 ≤ dims.length) (hpos : 0 < numElems dims) (hdata : data.length = numElems dims)
    (hb : ∀ i ∈ axes, i < dims.length) (hnd : axes.Nodup)
    (hord : order.Perm (List.range (numElems (axes.map (dims.getD · 0))))) :
    ∃ out, collapse op data dims axes order = .ok out ∧
      out.length = numElems (axes.map (dims.getD · 0)) ∧
      ∀ a, InRange a (axes.map (dims.getD · 0)) →
        ∃ L : List (List Nat), L ≠ [] ∧ L.Nodup ∧ (∀ m, m ∈ L ↔ Slice dims axes a m) ∧
          out[rowMajor a (axes.map (dims.getD · 0))]? = reduceList op (L.map (elemAt data dims)) := by
  obtain ⟨out, g1, g2, g3⟩ := collapse_spec op data dims axes order h1 hpos hdata hb hnd hord
  refine ⟨out, g1, g2, fun a ha => ?_⟩
  obtain ⟨L, l1, l2, l3, l4⟩ := g3 a ha
  exact ⟨L, l4, l1, l2, l3⟩

private theorem foldMax (absf : α → ℚ) (emb : ℚ → α) (hemb : ∀ q, 0 ≤ q → absf (emb q) = q)
    (hpos : ∀ x, 0 ≤ absf x) (x : α) (xs : List α) :
    (∀ y ∈ x :: xs, absf y ≤ absf (xs.foldl (fun l r => emb (max (absf l) (absf r))) x)) ∧
    ∃ y ∈ x :: xs, absf (xs.foldl (fun l r => emb (max (absf l) (absf r))) x) = absf y := by
  induction xs generalizing x with
  | nil => simp
  | cons z zs ih =>
    have hz : absf (emb (max (absf x) (absf z))) = max (absf x) (absf z) :=
      hemb _ (le_max_of_le_left (hpos x))
    obtain ⟨h1, y, hy, h2⟩ := ih (emb (max (absf x) (absf z)))
    simp only [List.foldl_cons]
    have h0 := h1 _ (List.mem_cons_self)
    rw [hz] at h0
    refine ⟨?_, ?_⟩
    · intro w hw
      rcases List.mem_cons.1 hw with rfl | hw
      · exact le_trans (le_max_left _ _) h0
      rcases List.mem_cons.1 hw with rfl | hw
      · exact le_trans (le_max_right _ _) h0
      · exact h1 w (by simp [hw])
    · rcases List.mem_cons.1 hy with rfl | hy
      · rw [h2, hz]
        rcases max_choice (absf x) (absf z) with hm | hm
        · exact ⟨x, by simp, hm⟩
        · exact ⟨z, by simp, hm⟩
      · exact ⟨y, by simp [hy], h2⟩

/-- C44.  The maximum along an axis: entry `i` bounds the modulus of every element whose component along
that axis is `i`, and is attained by one of them. -/
theorem c44_maxabs [Zero α] (absf : α → ℚ) (emb : ℚ → α) (hemb : ∀ q, 0 ≤ q → absf (emb q) = q)
    (hnn : ∀ x, 0 ≤ absf x) (data : List α) (dims : List Nat) (iDim : Nat) (order : List Nat)
    (hi : iDim < dims.length) (hpos : 0 < numElems dims) (hdata : data.length = numElems dims)
    (hord : order.Perm (List.range dims[iDim])) :
    ∃ out, maxabs absf emb data dims iDim order = .ok out ∧ out.length = dims[iDim] ∧
      ∀ i, i < dims[iDim] → ∃ q, out[i]? = some q ∧
        (∀ m, InRange m dims → m.getD iDim 0 = i → absf (elemAt data dims m) ≤ q) ∧
        ∃ m, InRange m dims ∧ m.getD iDim 0 = i ∧ q = absf (elemAt data dims m) := by
  have hax : [iDim].map (dims.getD · 0) = [dims[iDim]] := by
    simp [List.getD, List.getElem?_eq_getElem hi]
  have key := c44_collapse (fun l r => emb (max (absf l) (absf r))) data dims [iDim] order (by omega) hpos hdata
    (by simpa using hi) (by simp) (by rw [hax]; simpa [numElems] using hord)
  rw [hax] at key
  obtain ⟨r, hr, hlen, hsl⟩ := key
  have hrm : ∀ i, rowMajor [i] [dims[iDim]] = i := by intro i; simp [rowMajor]
  have slice : ∀ i, i < dims[iDim] → ∃ L : List (List Nat), L ≠ [] ∧ L.Nodup ∧
      (∀ m, m ∈ L ↔ InRange m dims ∧ m.getD iDim 0 = i) ∧
      r[i]? = reduceList (fun l r => emb (max (absf l) (absf r))) (L.map (elemAt data dims)) := by
    intro i hlt
    obtain ⟨L, l1, l2, l3, l4⟩ := hsl [i] (by simpa [InRange] using hlt)
    rw [hrm] at l4
    exact ⟨L, l1, l2, fun m => by rw [l3]; simp [Slice], l4⟩
  unfold maxabs
  by_cases hcase : data.length = dims[iDim]
  · refine ⟨data.map absf, by simp [List.getElem?_eq_getElem hi, toRes, bind, Except.bind, hcase], by simpa using hcase, ?_⟩
    intro i hlt
    -- every slice is a single element
    have hone : ∀ m, InRange m dims → rowMajor m dims < dims[iDim] := by
      intro m hm
      have := rowMajor_lt hm
      rw [← hcase, hdata]; exact this
    obtain ⟨L, l1, l2, l3, -⟩ := slice i hlt
    -- all elements of a slice sit at position `i`
    have hpos_i : ∀ m, InRange m dims → m.getD iDim 0 = i → rowMajor m dims = i := by
      intro m hm hmi
      -- product of the other extents is one
      have hsp : dims = dims.take iDim ++ dims[iDim] :: dims.drop (iDim + 1) := by
        rw [List.getElem_cons_drop, List.take_append_drop]
      have hml := hm.length_eq
      have hmsp : m = m.take iDim ++ m[iDim] :: m.drop (iDim + 1) := by
        rw [List.getElem_cons_drop, List.take_append_drop]
      have hprod : dims.prod = (dims.take iDim).prod * (dims[iDim] * (dims.drop (iDim + 1)).prod) := by
        conv_lhs => rw [hsp, List.prod_append, List.prod_cons]
      have hdp : dims.prod = dims[iDim] := by rw [← hcase, hdata]; rfl
      have hd0 : 0 < dims[iDim] := by omega
      have h1 : (dims.take iDim).prod * (dims.drop (iDim + 1)).prod = 1 := by
        have : dims[iDim] * ((dims.take iDim).prod * (dims.drop (iDim + 1)).prod) = dims.prod := by
          rw [hprod]; ring
        rw [hdp] at this
        exact Nat.eq_of_mul_eq_mul_left hd0 (by rw [this, Nat.mul_one])
      have ht1 : (dims.take iDim).prod = 1 := Nat.eq_one_of_mul_eq_one_right h1
      have ht2 : (dims.drop (iDim + 1)).prod = 1 := Nat.eq_one_of_mul_eq_one_left h1
      have hma : InRange (m.take iDim) (dims.take iDim) := List.forall₂_take iDim hm
      have hmb : InRange (m.drop (iDim + 1)) (dims.drop (iDim + 1)) := List.forall₂_drop _ hm
      have z1 := rowMajor_lt hma
      have z2 := rowMajor_lt hmb
      rw [ht1] at z1
      rw [ht2] at z2
      have : rowMajor m dims = m[iDim] := by
        refine (congrArg₂ rowMajor hmsp hsp).trans ?_
        rw [rowMajor_append (by simp; omega) (by simp; omega)]
        simp only [rowMajor, ht2]
        have e1 : rowMajor (m.take iDim) (dims.take iDim) = 0 := by omega
        have e2 : rowMajor (m.drop (iDim+1)) (dims.drop (iDim+1)) = 0 := by omega
        rw [e1, e2]; ring
      rw [this, ← hmi, List.getD_eq_getElem _ _ (by omega)]
    have hil : i < data.length := by omega
    have hval : ∀ m, InRange m dims → m.getD iDim 0 = i → elemAt data dims m = data[i] := by
      intro m hm hmi
      rw [elemAt, hpos_i m hm hmi, List.getD_eq_getElem _ _ hil]
    refine ⟨absf data[i], by simp [hil], fun m hm hmi => by rw [hval m hm hmi], ?_⟩
    obtain ⟨m, hm⟩ := List.exists_mem_of_ne_nil L l1
    have := (l3 m).1 hm
    exact ⟨m, this.1, this.2, by rw [hval m this.1 this.2]⟩
  · refine ⟨r.map absf, by simp [List.getElem?_eq_getElem hi, toRes, bind, Except.bind, hcase, hr],
      by simpa [numElems] using hlen, ?_⟩
    intro i hlt
    obtain ⟨L, l1, -, l3, l4⟩ := slice i hlt
    cases L with
    | nil => exact absurd rfl l1
    | cons m0 ms =>
      simp only [List.map_cons, reduceList] at l4
      obtain ⟨f1, y, hy, f2⟩ := foldMax absf emb hemb hnn (elemAt data dims m0) (ms.map (elemAt data dims))
      refine ⟨_, by rw [List.getElem?_map, l4]; rfl, ?_, ?_⟩
      · intro m hm hmi
        have := (l3 m).2 ⟨hm, hmi⟩
        exact f1 _ (by rw [← List.map_cons]; exact List.mem_map_of_mem this)
      · rw [← List.map_cons] at hy
        obtain ⟨m, hm, rfl⟩ := List.mem_map.1 hy
        exact ⟨m, ((l3 m).1 hm).1, ((l3 m).1 hm).2, f2⟩

example : collapse (· + ·) ([1, 2, 3, 4, 5, 6, 7, 8, 9, 10, 11, 12] : List ℚ) [2, 3, 2] [2, 0] [3, 1, 0, 2]
    = .ok [9, 27, 12, 30] := by decide +kernel
example : maxabs (fun x : ℚ => |x|) id [1, -2, 3, 4, 5, -6] [2, 3] 1 [0, 2, 1] = .ok [4, 5, 6] := by
  decide +kernel

/-! ### C10 -/

/-- C10 is false: two threads can lose an update. -/
theorem c10_sum_refuted :
    ¬ ∀ (data : List ℚ) (evs : List Ev), 1 < data.length → Interleaving data.length evs →
      collapseAll (· + ·) data evs = .ok data.sum := by
  intro h
  have := h [1, 2, 3] [.load 1, .load 2, .store 1, .store 2] (by decide) (by unfold Interleaving; decide)
  revert this; decide +kernel

/-- C10 is false for the maximum as well. -/
theorem c10_max_refuted :
    ¬ ∀ (data : List ℚ) (evs : List Ev), 1 < data.length → Interleaving data.length evs →
      ∃ r, collapseAll max data evs = .ok r ∧ ∀ x ∈ data, x ≤ r := by
  intro h
  obtain ⟨r, h1, h2⟩ := h [1, 3, 2] [.load 1, .load 2, .store 1, .store 2] (by decide) (by unfold Interleaving; decide)
  have h3 : collapseAll max ([1, 3, 2] : List ℚ) [.load 1, .load 2, .store 1, .store 2] = .ok 2 := by
    decide +kernel
  rw [h3] at h1
  cases h1
  have := h2 3 (by simp)
  norm_num at this

private theorem seq_aux (op : α → α → α) (data : List α) (n s : Nat) (hs : s + n ≤ data.length)
    (st : RState α) :
    ∃ regs, ((List.range' s n).flatMap fun j => [Ev.load j, Ev.store j]).foldlM (RState.step op data) st
      = .ok ⟨((data.drop s).take n).foldl op st.result, regs⟩ := by
  induction n generalizing s st with
  | zero => exact ⟨st.regs, by simp [pure, Except.pure]⟩
  | succ n ih =>
    obtain ⟨regs, h⟩ := ih (s + 1) (by omega)
      ⟨op st.result (data[s]'(by omega)), (s, st.result) :: st.regs⟩
    refine ⟨regs, ?_⟩
    have hlt : s < data.length := by omega
    rw [List.range'_succ, List.flatMap_cons, List.foldlM_append]
    simp only [List.foldlM_cons, List.foldlM_nil, RState.step, bind, Except.bind, List.lookup_cons,
      beq_self_eq_true, List.getElem?_eq_getElem hlt, pure, Except.pure]
    rw [h]
    simp only
    rw [show (data.drop s) = data[s] :: data.drop (s + 1) from List.drop_eq_getElem_cons hlt,
      List.take_succ_cons, List.foldl_cons]

/-- C10, what holds: with a single thread (program order) the reduction is the left fold. -/
theorem c10_single_thread_partial (op : α → α → α) (data : List α) (h : 1 < data.length) :
    (collapseAll op data (sequentialEvents data.length)).toOption = reduceList op data := by
  cases data with
  | nil => simp at h
  | cons x xs =>
    obtain ⟨regs, hr⟩ := seq_aux op (x :: xs) xs.length 1 (by simp; omega) ⟨x, []⟩
    have e : sequentialEvents (x :: xs).length
        = (List.range' 1 xs.length).flatMap fun j => [Ev.load j, Ev.store j] := by
      simp [sequentialEvents]
    unfold collapseAll
    rw [if_neg (by omega), e]
    simp only [bind, Except.bind] at hr ⊢
    rw [hr]
    simp [reduceList, Except.toOption]

/-- Data of at most one entry fail the assertion. -/
theorem c10_short_data (op : α → α → α) (data : List α) (evs : List Ev) (h : data.length ≤ 1) :
    collapseAll op data evs = .error .assertion := by simp [collapseAll, h]

end Verif.Collapse
