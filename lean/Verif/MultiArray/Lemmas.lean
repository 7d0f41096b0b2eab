import Verif.MultiArray.Spec
import Verif.Index.Lemmas

namespace Verif.MultiArray
open Verif Verif.Index

theorem checkBounds_iff {idx len : List Nat} (h : idx.length = len.length) :
    checkBounds idx len = true ↔ InRange idx len := by
  induction idx generalizing len with
  | nil => cases len <;> simp_all [checkBounds, InRange]
  | cons i is ih =>
    cases len with
    | nil => simp at h
    | cons d ds =>
      simp only [List.length_cons, Nat.add_right_cancel_iff] at h
      have := ih h
      unfold InRange at this ⊢
      rw [List.forall₂_cons, checkBounds]
      by_cases hd : i ≥ d
      · simp [hd]
        try omega
      · simp [hd, this]; try omega

theorem checkBounds_of_inRange {idx len : List Nat} (h : InRange idx len) :
    checkBounds idx len = true := (checkBounds_iff h.length_eq).2 h

theorem flatIndex_eq {idx len : List Nat} (h : idx.length = len.length) :
    flatIndex len idx = rowMajor idx len := by
  match idx, len, h with
  | [], [], _ => rfl
  | i :: is, d :: ds, h =>
    simp only [List.length_cons, Nat.add_right_cancel_iff] at h
    simp [flatIndex, flatLoop_eq _ _ _ h, rowMajor]

theorem flatSize_eq (len : List Nat) : flatSize len = len.prod := by
  simp [flatSize, foldl_mul_eq]

theorem at_of_inRange {m : MArr α} (hw : m.WF) {idx : List Nat} (h : InRange idx m.len) :
    ∃ x, m.elems[rowMajor idx m.len]? = some x ∧ m.at idx = .ok x := by
  have hlt : rowMajor idx m.len < m.elems.length := by rw [hw.2.1]; exact rowMajor_lt h
  refine ⟨m.elems[rowMajor idx m.len], by simp [hlt], ?_⟩
  simp [MArr.at, checkBounds_of_inRange h, flatIndex_eq h.length_eq, MArr.flatAt, hlt]

theorem at_eq_iff {m : MArr α} (hw : m.WF) {idx : List Nat} (h : InRange idx m.len) (x : α) :
    m.at idx = .ok x ↔ m.elems[rowMajor idx m.len]? = some x := by
  obtain ⟨y, h1, h2⟩ := at_of_inRange hw h
  rw [h1, h2]
  constructor
  · intro e; cases e; rfl
  · intro e; cases e; rfl

theorem rowMajor_inj {i j dims : List Nat} (hi : InRange i dims) (hj : InRange j dims)
    (h : rowMajor i dims = rowMajor j dims) : i = j := by
  have h1 := multLoop_rowMajor hi
  rw [h, multLoop_rowMajor hj] at h1
  exact h1.symm

theorem make_wf (len : List Nat) (v : α) (h : len ≠ []) : (MArr.make len v).WF := by
  refine ⟨h, ?_, rfl⟩
  simp [MArr.make, flatSize_eq]

theorem cumulLength_cons (d e : Nat) (ds : List Nat) :
    cumulLength (d :: e :: ds) = (e :: ds).prod :: cumulLength (e :: ds) := by
  induction ds generalizing d e with
  | nil => simp [cumulLength]
  | cons f ds ih =>
    have h := ih e f
    rw [cumulLength, h]
    simp [Nat.mul_comm, Nat.mul_left_comm]

theorem cumulLength_cons' (d : Nat) (ds : List Nat) :
    cumulLength (d :: ds) = ds.prod :: cumulLength ds := by
  cases ds with
  | nil => simp [cumulLength]
  | cons e ds => exact cumulLength_cons d e ds

theorem cumulLength_length (ds : List Nat) : (cumulLength ds).length = ds.length := by
  induction ds with
  | nil => rfl
  | cons d ds ih => simp [cumulLength_cons', ih]

/-- Row-major position as weighted sum with the cumulative lengths. -/
theorem rowMajor_eq_sum (is ds : List Nat) (h : is.length = ds.length) :
    rowMajor is ds = (List.zipWith (· * ·) is (cumulLength ds)).sum := by
  induction is generalizing ds with
  | nil => cases ds <;> simp [rowMajor]
  | cons i is ih =>
    cases ds with
    | nil => simp at h
    | cons d ds =>
      simp only [List.length_cons, Nat.add_right_cancel_iff] at h
      rw [cumulLength_cons', rowMajor, ih ds h]
      simp

theorem setAt_spec {m : MArr α} (hw : m.WF) {idx : List Nat} (h : InRange idx m.len) (v : α) :
    m.setAt idx v = .ok { m with elems := m.elems.set (rowMajor idx m.len) v } := by
  have hlt : rowMajor idx m.len < m.elems.length := by rw [hw.2.1]; exact rowMajor_lt h
  simp [MArr.setAt, checkBounds_of_inRange h, flatIndex_eq h.length_eq, hlt]

theorem exec_refines {m : MArr α} {dims : List Nat} {s : List Nat → α}
    (hr : Represents m dims s) (o : Op α) (hl : o.Legal dims) :
    ∃ m', o.exec m = .ok m' ∧ Represents m' dims (o.meaning dims s) := by
  obtain ⟨hw, hlen, hat⟩ := hr
  subst hlen
  cases o with
  | write idx v =>
    have hidx : InRange idx m.len := hl
    refine ⟨_, setAt_spec hw hidx v, ⟨hw.1, by simpa using hw.2.1, hw.2.2⟩, rfl, ?_⟩
    intro j hj
    have hw' : ({ m with elems := m.elems.set (rowMajor idx m.len) v } : MArr α).WF :=
      ⟨hw.1, by simpa using hw.2.1, hw.2.2⟩
    rw [at_eq_iff hw' hj]
    have h0 := (at_eq_iff hw hj _).1 (hat j hj)
    have hlt : rowMajor idx m.len < m.elems.length := by rw [hw.2.1]; exact rowMajor_lt hidx
    simp only [Op.meaning]
    by_cases e : j = idx
    · subst e; simp [hlt]
    · rw [if_neg e, List.getElem?_set_ne (fun hh => e (rowMajor_inj hj hidx hh.symm)), h0]
  | writeBlock idx block =>
    obtain ⟨hidx, hfit⟩ := hl
    have hlt : rowMajor idx m.len < m.elems.length := by rw [hw.2.1]; exact rowMajor_lt hidx
    let els := m.elems.take (rowMajor idx m.len) ++ block ++ m.elems.drop (rowMajor idx m.len + block.length)
    have hlen' : els.length = m.elems.length := by
      simp [els, hw.2.1]; rw [hw.2.1] at hlt; omega
    have hw' : ({ m with elems := els } : MArr α).WF :=
      ⟨hw.1, by rw [← hw.2.1]; exact hlen', hw.2.2⟩
    refine ⟨{ m with elems := els }, ?_, hw', rfl, ?_⟩
    · simp [Op.exec, MArr.setVectorized, checkBounds_of_inRange hidx, flatIndex_eq hidx.length_eq,
        hw.2.1, hfit, els]
    · intro j hj
      rw [at_eq_iff hw' hj]
      have h0 := (at_eq_iff hw hj _).1 (hat j hj)
      simp only [Op.meaning]
      have hjl : rowMajor j m.len < m.elems.length := by rw [hw.2.1]; exact rowMajor_lt hj
      simp only [els]
      set k := rowMajor j m.len
      set k0 := rowMajor idx m.len
      have htl : (m.elems.take k0).length = k0 := by simp; omega
      by_cases h1 : k0 ≤ k
      · rw [if_pos h1]
        by_cases h2 : k - k0 < block.length
        · rw [List.append_assoc, List.getElem?_append_right (by omega), htl,
            List.getElem?_append_left h2]
          simp [h2]
        · rw [List.getElem?_append_right (by simp; omega), List.getElem?_drop,
            List.getElem?_eq_none (l := block) (by omega)]
          simp only [List.length_append, htl, Option.getD_none]
          rw [← h0]; congr 1; omega
      · rw [if_neg h1, List.append_assoc, List.getElem?_append_left (by omega),
          List.getElem?_take_of_lt (by omega), h0]
  | zip op rhs r =>
    obtain ⟨hwr, hlr, hatr⟩ := hl
    have hll : m.elems.length = rhs.elems.length := by rw [hw.2.1, hwr.2.1, hlr]
    have hw' : ({ m with elems := List.zipWith op m.elems rhs.elems } : MArr α).WF :=
      ⟨hw.1, by simp [← hll, hw.2.1], hw.2.2⟩
    refine ⟨{ m with elems := List.zipWith op m.elems rhs.elems }, ?_, hw', rfl, ?_⟩
    · simp [Op.exec, MArr.zipAssign, hlr]
    · intro j hj
      rw [at_eq_iff hw' hj]
      have h0 := (at_eq_iff hw hj _).1 (hat j hj)
      have h1 := (at_eq_iff hwr (by rw [hlr]; exact hj) _).1 (hatr j hj)
      rw [hlr] at h1
      simp only [Op.meaning, List.getElem?_zipWith, h0, h1]
  | map f =>
    have hw' : (m.mapAssign f).WF := ⟨hw.1, by simp [MArr.mapAssign, hw.2.1], hw.2.2⟩
    refine ⟨m.mapAssign f, rfl, hw', rfl, ?_⟩
    intro j hj
    rw [at_eq_iff hw' hj]
    have h0 := (at_eq_iff hw hj _).1 (hat j hj)
    simp [MArr.mapAssign, Op.meaning, h0]

end Verif.MultiArray
