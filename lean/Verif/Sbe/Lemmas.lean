import Verif.Sbe.Model
import Verif.Sbe.Spec
import Verif.Index.Props
import Verif.Keldysh.Props
import Mathlib.Data.List.InsertIdx
import Mathlib.Tactic.IntervalCases
import Mathlib.Tactic.LinearCombination

/-! Facts used for C131. -/
namespace Verif.Sbe

open Keldysh Index

theorem zero_mem_of_prod {l : List Nat} (h : 0 < l.prod) : 0 ∉ l := fun h0 => by
  rw [List.prod_eq_zero h0] at h
  exact absurd h (lt_irrefl 0)

/-- Unpacking with one dimension left out inverts the row-major position in the remaining dimensions. -/
theorem skip_rowMajor (dims rest : List Nat) (idim : Nat) (hd : idim < dims.length)
    (hr : InRange rest (dims.eraseIdx idim)) :
    skip (rowMajor rest (dims.eraseIdx idim)) dims idim = some (rest.insertIdx idim 0) := by
  match dims, hd, hr with
  | d :: ds, hd, hr =>
    have hl : ¬ ((d :: ds).length ≤ idim) := by omega
    match idim, hd, hr, hl with
    | 0, hd, hr, hl =>
      simp only [List.eraseIdx_cons_zero] at hr ⊢
      have hp := prod_pos_of_inRange hr
      simp only [skip, if_neg hl, if_true, if_neg (zero_mem_of_prod hp), foldl_mul_eq, Nat.one_mul, multLoop_rowMajor hr,
        List.insertIdx_zero]
    | k + 1, hd, hr, hl =>
      simp only [List.eraseIdx_cons_succ] at hr ⊢
      match rest, hr with
      | i :: rest, hr =>
        obtain ⟨-, hr'⟩ := List.forall₂_cons.1 hr
        have hr' : InRange rest (ds.eraseIdx k) := hr'
        have hp := prod_pos_of_inRange hr'
        have hlt := rowMajor_lt hr'
        have k0 : ¬ (k + 1 = 0) := by omega
        have h2 : (i * (ds.eraseIdx k).prod + rowMajor rest (ds.eraseIdx k)) / (ds.eraseIdx k).prod = i := by
          rw [Nat.mul_comm, Nat.mul_add_div hp, Nat.div_eq_of_lt hlt, Nat.add_zero]
        have e1 : rowMajor (i :: rest) (d :: ds.eraseIdx k) = i * (ds.eraseIdx k).prod + rowMajor rest (ds.eraseIdx k) := rfl
        simp only [skip, if_neg hl, if_neg k0, Nat.add_sub_cancel, if_neg (zero_mem_of_prod hp), foldl_mul_eq, Nat.one_mul]
        rw [e1, h2, Nat.add_sub_cancel_left, multLoop_rowMajor hr']

/-! ### Buffers -/

variable {Q : Type}

theorem store_append (m : Mem Q) (a b : List (Nat × Q)) : store m (a ++ b) = store (store m a) b := by
  simp [store, List.foldl_append]

/-- A position all of whose writes carry the same value. -/
theorem store_eq (m : Mem Q) (ws : List (Nat × Q)) (p : Nat) (v : Q) (h1 : ∃ w ∈ ws, w.1 = p)
    (h2 : ∀ w ∈ ws, w.1 = p → w.2 = v) : store m ws p = v := by
  induction ws using List.reverseRecOn with
  | nil => simp at h1
  | append_singleton l w ih =>
    rw [store_append]
    simp only [store, List.foldl_cons, List.foldl_nil]
    by_cases hp : p = w.1
    · rw [if_pos hp]; exact h2 w (by simp) hp.symm
    · rw [if_neg hp]
      refine ih ?_ fun w' hw' => h2 w' (by simp [hw'])
      obtain ⟨w', hw', e⟩ := h1
      rcases List.mem_append.1 hw' with h | h
      · exact ⟨w', h, e⟩
      · rw [List.mem_singleton] at h
        exact absurd (h ▸ e).symm hp

theorem pos_eq {idx dims : List Nat} (hr : 2 ≤ dims.length) (h : InRange idx dims) : pos idx dims = rowMajor idx dims := by
  rw [pos, getFlatIndex_eq _ _ h.length_eq hr]; rfl

theorem multi_pos {idx dims : List Nat} (hr : 2 ≤ dims.length) (h : InRange idx dims) :
    multi (rowMajor idx dims) dims = idx := by
  rw [multi, getMultIndex_rowMajor h (by omega)]; rfl

theorem size_eq {dims : List Nat} (hr : 1 ≤ dims.length) : (getFlatSize dims).getD 0 = dims.prod := by
  match dims, hr with
  | d :: ds, _ => rw [c01_flat_size]; rfl

/-- The loop over all entries leaves at each entry the value computed for it. -/
theorem fill_at [Zero Q] {idx dims : List Nat} (hr : 2 ≤ dims.length) (h : InRange idx dims) (f : List Nat → Q) :
    fill dims f (pos idx dims) = f idx := by
  unfold fill
  rw [size_eq (by omega)]
  apply store_eq
  · exact ⟨_, List.mem_map.2 ⟨rowMajor idx dims, List.mem_range.2 (rowMajor_lt h), rfl⟩, by rw [multi_pos hr h]⟩
  · intro w hw e
    obtain ⟨i, hi, rfl⟩ := List.mem_map.1 hw
    obtain ⟨is, h1, h2, h3⟩ := getMultIndex_spec i dims (by omega) (List.mem_range.1 hi)
    have e1 : multi i dims = is := by rw [multi, h1]; rfl
    dsimp only at e ⊢
    rw [e1] at e ⊢
    rw [pos_eq hr h2, pos_eq hr h] at e
    have := multi_pos hr h2
    rw [e, multi_pos hr h] at this
    rw [this]

/-- `pre ++ [k, 0]` in a shape whose last extents are the Keldysh extent and one. -/
theorem rowMajor_last (pre dpre : List Nat) (h : pre.length = dpre.length) (k nK : Nat) :
    rowMajor (pre ++ [k, 0]) (dpre ++ [nK, 1]) = rowMajor pre dpre * nK + k := by
  induction pre generalizing dpre with
  | nil => match dpre, h with
    | [], _ => simp [rowMajor]
  | cons i is ih => match dpre, h with
    | d :: ds, h =>
      simp only [List.cons_append, rowMajor]
      rw [ih ds (by simpa using h)]
      simp only [List.prod_append, List.prod_cons, List.prod_nil]
      ring

theorem inRange_last {pre dpre : List Nat} (h : InRange pre dpre) {k nK : Nat} (hk : k < nK) :
    InRange (pre ++ [k, 0]) (dpre ++ [nK, 1]) := by
  induction h with
  | nil => exact .cons hk (.cons (by omega) .nil)
  | cons a _ ih => exact .cons a ih

theorem rowMajor_last1 (pre dpre : List Nat) (h : pre.length = dpre.length) :
    rowMajor (pre ++ [0]) (dpre ++ [1]) = rowMajor pre dpre := by
  induction pre generalizing dpre with
  | nil => match dpre, h with
    | [], _ => simp [rowMajor]
  | cons i is ih => match dpre, h with
    | d :: ds, h =>
      simp only [List.cons_append, rowMajor]
      rw [ih ds (by simpa using h)]
      simp

theorem rowMajor_inj {a b dims : List Nat} (ha : InRange a dims) (hb : InRange b dims)
    (h : rowMajor a dims = rowMajor b dims) : a = b := by
  match dims, ha, hb with
  | [], ha, hb =>
    rw [List.forall₂_nil_right_iff.1 ha, List.forall₂_nil_right_iff.1 hb]
  | d :: ds, ha, hb =>
    have h1 := getMultIndex_rowMajor ha (by simp)
    have h2 := getMultIndex_rowMajor hb (by simp)
    rw [h, h2] at h1
    exact (Option.some.inj h1).symm

theorem inRange_append1 {pre dpre : List Nat} (h : InRange pre dpre) : InRange (pre ++ [0]) (dpre ++ [1]) := by
  induction h with
  | nil => exact .cons (by omega) .nil
  | cons a _ ih => exact .cons a ih

theorem insert_last (q : List Nat) : (q ++ [0]).insertIdx q.length 0 = q ++ [0, 0] := by
  induction q with
  | nil => rfl
  | cons a q ih => simpa using ih

/-- The loop that skips the Keldysh index and writes all components at once leaves at each entry the component
computed for it. -/
theorem fillVec_at [Zero Q] (pre dpre : List Nat) (hpre : InRange pre dpre) (nK : Nat) (k : Nat) (hk : k < nK)
    (f : List Nat → Nat → Q) (h1 : 1 ≤ dpre.length) :
    fillVec (dpre ++ [nK, 1]) dpre.length nK f (pos (pre ++ [k, 0]) (dpre ++ [nK, 1])) = f (pre ++ [0, 0]) k := by
  have hK : 0 < nK := by omega
  have hl : 2 ≤ (dpre ++ [nK, 1]).length := by simp
  have hd : dpre.length < (dpre ++ [nK, 1]).length := by simp
  have hs : (getFlatSize (dpre ++ [nK, 1])).getD 0 / nK = dpre.prod := by
    rw [size_eq (by omega)]
    simp [Nat.mul_div_cancel _ hK]
  have he : (dpre ++ [nK, 1]).eraseIdx dpre.length = dpre ++ [1] := by
    rw [List.eraseIdx_append_of_length_le (le_refl _)]; simp
  have hskip : ∀ q, InRange q dpre → skip (rowMajor q dpre) (dpre ++ [nK, 1]) dpre.length = some (q ++ [0, 0]) := by
    intro q hq
    have e1 : rowMajor (q ++ [0]) (dpre ++ [1]) = rowMajor q dpre := rowMajor_last1 q dpre hq.length_eq
    have := skip_rowMajor (dpre ++ [nK, 1]) (q ++ [0]) dpre.length hd (by rw [he]; exact inRange_append1 hq)
    rw [he, e1] at this
    rw [this, ← hq.length_eq, insert_last]
  have hpos : ∀ q j, InRange q dpre → j < nK → pos (q ++ [0, 0]) (dpre ++ [nK, 1]) + j = rowMajor q dpre * nK + j := by
    intro q j hq hj
    rw [pos_eq hl (inRange_last hq hK), rowMajor_last q dpre hq.length_eq, Nat.add_zero]
  have hp := pos_eq hl (inRange_last hpre hk)
  rw [rowMajor_last pre dpre hpre.length_eq] at hp
  unfold fillVec
  rw [hs, hp]
  apply store_eq
  · refine ⟨(rowMajor pre dpre * nK + k, f (pre ++ [0, 0]) k), List.mem_flatMap.2
      ⟨rowMajor pre dpre, List.mem_range.2 (rowMajor_lt hpre), List.mem_map.2 ⟨k, List.mem_range.2 hk, ?_⟩⟩, rfl⟩
    rw [hskip pre hpre]
    simp only [Option.getD_some]
    rw [hpos pre k hpre hk]
  · intro w hw e
    obtain ⟨i, hi, hw⟩ := List.mem_flatMap.1 hw
    obtain ⟨j, hj, rfl⟩ := List.mem_map.1 hw
    have hj := List.mem_range.1 hj
    obtain ⟨q, -, hq, hqi⟩ := getMultIndex_spec i dpre h1 (List.mem_range.1 hi)
    rw [← hqi, hskip q hq] at e ⊢
    simp only [Option.getD_some] at e ⊢
    rw [hpos q j hq hj] at e
    have ej : j = k := by
      have := congrArg (· % nK) e
      simp only [Nat.mul_comm _ nK, Nat.mul_add_mod, Nat.mod_eq_of_lt hj, Nat.mod_eq_of_lt hk] at this
      exact this
    subst ej
    have eq : rowMajor q dpre = rowMajor pre dpre := Nat.eq_of_mul_eq_mul_right hK (by omega)
    rw [rowMajor_inj hq hpre eq]

end Verif.Sbe
