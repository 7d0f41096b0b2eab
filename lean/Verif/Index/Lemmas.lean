import Verif.Index.Model
import Verif.Index.Spec
import Mathlib.Data.List.Forall2
import Mathlib.Algebra.BigOperators.Group.List.Basic
import Mathlib.Tactic.Ring
import Mathlib.Tactic.Linarith
import Mathlib.Data.List.Rotate

namespace Verif.Index

theorem foldl_mul_eq (a : Nat) (l : List Nat) : l.foldl (· * ·) a = a * l.prod := by
  induction l generalizing a with
  | nil => simp
  | cons x xs ih => simp [ih, Nat.mul_assoc]

theorem flatLoop_eq (acc : Nat) (is ds : List Nat) (h : is.length = ds.length) :
    flatLoop acc is ds = acc * ds.prod + rowMajor is ds := by
  induction is generalizing acc ds with
  | nil => cases ds <;> simp_all [flatLoop, rowMajor]
  | cons i is ih =>
    cases ds with
    | nil => simp at h
    | cons d ds =>
      simp only [List.length_cons, Nat.add_right_cancel_iff] at h
      simp only [flatLoop, ih _ _ h, rowMajor, List.prod_cons]
      ring

theorem getFlatIndex_eq (is ds : List Nat) (h : is.length = ds.length) (h2 : 2 ≤ ds.length) :
    getFlatIndex is ds = some (rowMajor is ds) := by
  match is, ds, h, h2 with
  | i :: j :: is, d :: e :: ds, h, _ =>
    simp only [List.length_cons, Nat.add_right_cancel_iff] at h
    simp only [getFlatIndex, List.length_cons, h, ne_eq, not_true_eq_false, if_false]
    rw [flatLoop_eq _ _ _ (by simp [h])]
    rfl
  | [], d :: e :: ds, h, _ => simp at h
  | [_], d :: e :: ds, h, _ => simp at h

theorem InRange.length_eq {is ds : List Nat} (h : InRange is ds) : is.length = ds.length :=
  List.Forall₂.length_eq h

theorem rowMajor_lt {is ds : List Nat} (h : InRange is ds) : rowMajor is ds < ds.prod := by
  induction h with
  | nil => simp [rowMajor]
  | @cons i d is ds hid _ ih =>
    simp only [rowMajor, List.prod_cons]
    calc i * ds.prod + rowMajor is ds < i * ds.prod + ds.prod := by omega
      _ = (i + 1) * ds.prod := by ring
      _ ≤ d * ds.prod := Nat.mul_le_mul_right _ hid

theorem prod_pos_of_inRange {is ds : List Nat} (h : InRange is ds) : 0 < ds.prod :=
  Nat.lt_of_le_of_lt (Nat.zero_le _) (rowMajor_lt h)

theorem multLoop_rowMajor {is ds : List Nat} (h : InRange is ds) :
    multLoop (rowMajor is ds) ds.prod ds = is := by
  induction h with
  | nil => rfl
  | @cons i d is ds hid hrest ih =>
    have hp : 0 < ds.prod := prod_pos_of_inRange hrest
    have hlt := rowMajor_lt hrest
    have hd : 0 < d := by omega
    have h1 : (d * ds.prod) / d = ds.prod := Nat.mul_div_cancel_left _ hd
    have h2 : (i * ds.prod + rowMajor is ds) / ds.prod = i := by
      rw [Nat.mul_comm, Nat.mul_add_div hp, Nat.div_eq_of_lt hlt, Nat.add_zero]
    simp only [multLoop, rowMajor, List.prod_cons, h1, h2]
    rw [Nat.add_sub_cancel_left, ih]

/-- The loop inverts the row-major position, and yields an in-range multi-index. -/
theorem multLoop_spec (t : Nat) (ds : List Nat) (ht : t < ds.prod) :
    InRange (multLoop t ds.prod ds) ds ∧ rowMajor (multLoop t ds.prod ds) ds = t := by
  induction ds generalizing t with
  | nil =>
    simp at ht; subst ht
    exact ⟨List.Forall₂.nil, rfl⟩
  | cons d ds ih =>
    rw [List.prod_cons] at ht
    have hp : 0 < ds.prod := by
      rcases Nat.eq_zero_or_pos ds.prod with h | h
      · simp [h] at ht
      · exact h
    have hd : 0 < d := by
      rcases Nat.eq_zero_or_pos d with h | h
      · simp [h] at ht
      · exact h
    have h1 : (d * ds.prod) / d = ds.prod := Nat.mul_div_cancel_left _ hd
    have hmod : t - t / ds.prod * ds.prod = t % ds.prod := by
      have := Nat.div_add_mod t ds.prod
      rw [Nat.mul_comm] at this; omega
    have hlt : t % ds.prod < ds.prod := Nat.mod_lt _ hp
    obtain ⟨ihR, ihE⟩ := ih _ hlt
    simp only [multLoop, List.prod_cons, h1, hmod]
    refine ⟨List.Forall₂.cons ?_ ihR, ?_⟩
    · exact Nat.div_lt_of_lt_mul (by rw [Nat.mul_comm]; exact ht)
    · simp only [rowMajor, ihE]
      have := Nat.div_add_mod t ds.prod
      rw [Nat.mul_comm] at this; exact this

theorem getMultIndex_rowMajor {is ds : List Nat} (h : InRange is ds) (h2 : 1 ≤ ds.length) :
    getMultIndex (rowMajor is ds) ds = some is := by
  match is, ds, h, h2 with
  | [i], [d], h, _ => simp [getMultIndex, rowMajor]
  | i :: is, d :: e :: ds, h, _ =>
    have hrest : InRange is (e :: ds) := (List.forall₂_cons.1 h).2
    have hp := prod_pos_of_inRange hrest
    have hlt := rowMajor_lt hrest
    simp only [getMultIndex, foldl_mul_eq, Nat.one_mul, Nat.ne_of_gt hp, if_false]
    have h2' : (i * (e :: ds).prod + rowMajor is (e :: ds)) / (e :: ds).prod = i := by
      rw [Nat.mul_comm, Nat.mul_add_div hp, Nat.div_eq_of_lt hlt, Nat.add_zero]
    have e1 : rowMajor (i :: is) (d :: e :: ds) = i * (e :: ds).prod + rowMajor is (e :: ds) := rfl
    rw [e1, h2', Nat.add_sub_cancel_left, multLoop_rowMajor hrest]
  | _ :: _ :: _, [_], h, _ => simp [InRange] at h
  | [], _ :: _, h, _ => simp [InRange] at h

theorem getMultIndex_spec (t : Nat) (ds : List Nat) (h1 : 1 ≤ ds.length) (ht : t < ds.prod) :
    ∃ is, getMultIndex t ds = some is ∧ InRange is ds ∧ rowMajor is ds = t := by
  have h := multLoop_spec t ds ht
  exact ⟨_, by rw [← getMultIndex_rowMajor h.1 h1, h.2], h.1, h.2⟩

/-! ### rotations -/

theorem inRange_cyc {is ds : List Nat} (h : InRange is ds) (k : Nat) :
    InRange (cyc is k) (cyc ds k) := by
  unfold cyc InRange
  exact List.rel_append (List.forall₂_drop k h) (List.forall₂_take k h)

theorem prod_cyc (ds : List Nat) (k : Nat) : (cyc ds k).prod = ds.prod := by
  unfold cyc
  rw [List.prod_append, Nat.mul_comm, ← List.prod_append, List.take_append_drop]

theorem cyc_length (ds : List α) (k : Nat) : (cyc ds k).length = ds.length := by
  unfold cyc; simp; omega

theorem cyc_cyc (l : List α) (k : Nat) : cyc (cyc l k) (l.length - k) = l := by
  unfold cyc
  have h : (l.drop k).length = l.length - k := by simp
  rw [← h, List.drop_left, List.take_left, List.take_append_drop]

theorem mapM_getElem?_eq {l : List α} {idx : List Nat} {out : List α}
    (hlen : idx.length = out.length)
    (h : ∀ j (hj : j < idx.length), l[idx[j]]? = out[j]?) : idx.mapM (l[·]?) = some out := by
  induction idx generalizing out with
  | nil => cases out <;> simp_all
  | cons i is ih =>
    cases out with
    | nil => simp at hlen
    | cons o os =>
      have h0 := h 0 (by simp)
      have := ih (out := os) (by simpa using hlen) (fun j hj => by
        have := h (j + 1) (by simpa using hj)
        rw [List.getElem_cons_succ, List.getElem?_cons_succ] at this
        exact this)
      simp only [List.getElem_cons_zero, List.getElem?_cons_zero] at h0
      simp [List.mapM_cons, h0, this]

theorem mapM_congr' {f g : α → Option β} {l : List α} (h : ∀ x ∈ l, f x = g x) :
    l.mapM f = l.mapM g := by
  induction l with
  | nil => rfl
  | cons x xs ih =>
    rw [List.mapM_cons, List.mapM_cons, h x (by simp), ih (fun y hy => h y (by simp [hy]))]

theorem dimsRot_eq (dims : List Nat) (k : Nat) (hk : k < dims.length) :
    dimsRot dims k = some (cyc dims (k + 1)) := by
  unfold dimsRot
  have h : ∀ i ∈ List.range dims.length,
      (if i < dims.length - k - 1 then dims[i + 1 + k]? else dims[i + 1 + k - dims.length]?)
        = (cyc dims (k+1))[i]? := by
    intro i hi
    have hi : i < dims.length := by simpa using hi
    unfold cyc
    by_cases hlt : i < dims.length - k - 1
    · rw [if_pos hlt, List.getElem?_append_left (by simp; omega), List.getElem?_drop]
      congr 1; omega
    · rw [if_neg hlt, List.getElem?_append_right (by simp; omega), List.getElem?_take_of_lt (by simp; omega)]
      congr 1; simp; omega
  have key : (List.range dims.length).mapM (fun i =>
      if i < dims.length - k - 1 then dims[i + 1 + k]? else dims[i + 1 + k - dims.length]?)
      = (List.range dims.length).mapM (fun i => (cyc dims (k+1))[i]?) :=
    mapM_congr' h
  rw [key]
  apply mapM_getElem?_eq
  · simp [cyc_length]
  · intro j hj; simp

theorem rot_mapM {l : List α} (k : Nat) (hk : k < l.length) :
    (rotPermutation l.length k).mapM ((cyc l (k+1))[·]?) = some l := by
  apply mapM_getElem?_eq
  · simp [rotPermutation]
  · intro j hj
    have hj' : j < l.length := by simpa [rotPermutation] using hj
    simp only [rotPermutation, List.getElem_map, List.getElem_range]
    unfold cyc
    by_cases hle : j ≤ k
    · rw [if_pos hle, List.getElem?_append_right (by simp; omega), List.getElem?_take_of_lt (by simp; omega)]
      congr 1; simp; omega
    · rw [if_neg hle, List.getElem?_append_left (by simp; omega), List.getElem?_drop]
      congr 1; omega

theorem rotateFlatIndex_cyc {is ds : List Nat} (h : InRange is ds) (k : Nat) (hk : k < ds.length) :
    rotateFlatIndex (rowMajor (cyc is (k+1)) (cyc ds (k+1))) ds k = some (rowMajor is ds) := by
  have hlen := h.length_eq
  have hd := dimsRot_eq ds k hk
  have hR := inRange_cyc h (k+1)
  have hm := getMultIndex_rowMajor hR (by rw [cyc_length]; omega)
  have e1 := rot_mapM (l := is) k (by omega)
  have e2 := rot_mapM (l := ds) k hk
  rw [hlen] at e1
  unfold rotateFlatIndex
  rw [if_neg (by omega)]
  simp only [hd, rotateFlatIndexPerm, hm, getFlatIndexPerm, e1, e2, Option.bind_eq_bind, Option.bind_some]
  match is, ds, h, hlen with
  | i :: is, d :: ds, _, hlen =>
    simp only [List.length_cons, Nat.add_right_cancel_iff] at hlen
    simp [flatLoop_eq _ _ _ hlen, rowMajor]
  | [], [], _, _ => simp at hk

end Verif.Index
