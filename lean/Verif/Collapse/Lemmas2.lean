import Verif.Collapse.Lemmas
import Verif.Collapse.Spec

namespace Verif.Collapse
open Verif Verif.Index

theorem rowMajor_inj {a b ds : List Nat} (ha : InRange a ds) (hb : InRange b ds)
    (h : rowMajor a ds = rowMajor b ds) : a = b := by
  rcases Nat.eq_zero_or_pos ds.length with h0 | h0
  · have e1 := ha.length_eq
    have e2 := hb.length_eq
    rw [h0] at e1 e2
    rw [List.length_eq_zero_iff.1 e1, List.length_eq_zero_iff.1 e2]
  · have e1 := getMultIndex_rowMajor ha h0
    have e2 := getMultIndex_rowMajor hb h0
    rw [h, e2] at e1
    exact (Option.some.inj e1).symm

theorem blockInj {s s' b j j' : Nat} (hj : j < b) (hj' : j' < b) (h : s * b + j = s' * b + j') :
    s = s' ∧ j = j' := by
  have hb : 0 < b := by omega
  have h1 : (s * b + j) / b = s := by
    rw [Nat.mul_comm, Nat.mul_add_div hb, Nat.div_eq_of_lt hj, Nat.add_zero]
  have h2 : (s' * b + j') / b = s' := by
    rw [Nat.mul_comm, Nat.mul_add_div hb, Nat.div_eq_of_lt hj', Nat.add_zero]
  have : s = s' := by rw [← h1, ← h2, h]
  subst this
  exact ⟨rfl, by omega⟩

theorem map_getD_range' (l : List Nat) : (List.range l.length).map (l.getD · 0) = l := by
  apply List.ext_getElem
  · simp
  · intro i h1 h2; simp [h2]

theorem inRange_map {m dims P : List Nat} (h : InRange m dims) (hP : ∀ i ∈ P, i < dims.length) :
    InRange (P.map (m.getD · 0)) (P.map (dims.getD · 0)) := by
  have := (inRange_iff.1 h).2
  unfold InRange
  rw [List.forall₂_map_left_iff, List.forall₂_map_right_iff, List.forall₂_same]
  intro k hk
  exact this k (hP k hk)

theorem foldlM_read (op : α → α → α) (f : Nat → Res α) (v : Nat → α) (l : List Nat) (x : α)
    (h : ∀ j ∈ l, f j = .ok (v j)) :
    l.foldlM (fun acc j => do let y ← f j; (.ok (op acc y) : Res α)) x = .ok ((l.map v).foldl op x) := by
  induction l generalizing x with
  | nil => rfl
  | cons j js ih =>
    rw [List.foldlM_cons, h j (by simp)]
    exact ih _ (fun k hk => h k (by simp [hk]))

theorem collapse_spec [Zero α] (op : α → α → α) (data : List α) (dims iDims : List Nat) (order : List Nat)
    (h1 : 1 ≤ dims.length) (hpos : 0 < dims.prod) (hdata : data.length = dims.prod)
    (hb : ∀ i ∈ iDims, i < dims.length) (hnd : iDims.Nodup)
    (hord : order.Perm (List.range (iDims.map (dims.getD · 0)).prod)) :
    ∃ out, collapse op data dims iDims order = .ok out ∧
      out.length = (iDims.map (dims.getD · 0)).prod ∧
      ∀ a, InRange a (iDims.map (dims.getD · 0)) →
        ∃ L : List (List Nat), L.Nodup ∧ (∀ m, m ∈ L ↔ Slice dims iDims a m) ∧
          out[rowMajor a (iDims.map (dims.getD · 0))]?
            = reduceList op (L.map (elemAt data dims)) ∧ L ≠ [] := by
  set O := (others iDims dims.length).reverse with hO
  set P := iDims ++ O with hP
  have hperm : P.Perm (List.range dims.length) := perm_axes dims.length iDims hb hnd
  have hPl : P.length = dims.length := by simpa using hperm.length_eq
  have hPb : ∀ k ∈ P, k < dims.length := fun k hk => by simpa using hperm.mem_iff.1 hk
  have hPn : P.Nodup := hperm.nodup_iff.2 List.nodup_range
  obtain ⟨inv, i1, i2, i3⟩ := getInversePermutation_spec P (by rw [hPl]; exact hPb) hPn
  set kept := iDims.map (dims.getD · 0) with hkept
  set dO := O.map (dims.getD · 0) with hdO
  set dR := P.map (dims.getD · 0) with hdR
  have hdRapp : dR = kept ++ dO := by rw [hdR, hP, List.map_append]
  have hprod : dR.prod = dims.prod := by
    have : dR.Perm ((List.range dims.length).map (dims.getD · 0)) := hperm.map _
    rw [this.prod_eq, map_getD_range']
  have hsplit : kept.prod * dO.prod = dims.prod := by rw [← hprod, hdRapp, List.prod_append]
  have hkp : 0 < kept.prod := by
    rcases Nat.eq_zero_or_pos kept.prod with h | h
    · rw [h, Nat.zero_mul] at hsplit; omega
    · exact h
  have hdc : 0 < dO.prod := by
    rcases Nat.eq_zero_or_pos dO.prod with h | h
    · rw [h, Nat.mul_zero] at hsplit; omega
    · exact h
  -- native index of a rotated flat index
  have hnat : ∀ k, ∃ m, k < dims.prod → InRange m dims ∧ rowMajor (P.map (m.getD · 0)) dR = k := by
    intro k
    by_cases hk : k < dims.prod
    · obtain ⟨m', -, g2, g3⟩ := getMultIndex_spec k dR (by rw [hdR]; simp; omega) (by omega)
      have hm'l : m'.length = dims.length := by rw [g2.length_eq, hdR]; simp [hPl]
      refine ⟨inv.map (m'.getD · 0), fun _ => ?_⟩
      have hget : ∀ i (hi : i < P.length), (inv.map (m'.getD · 0)).getD P[i] 0 = m'.getD i 0 := by
        intro i hi
        have := i3 i hi
        rw [List.getD, List.getElem?_map, this]; rfl
      have hmap : P.map ((inv.map (m'.getD · 0)).getD · 0) = m' := by
        apply List.ext_getElem
        · simp; omega
        · intro i q1 q2
          simp only [List.getElem_map]
          rw [hget i (by simpa using q1)]
          simp [List.getD, q2]
      refine ⟨?_, by rw [hmap, g3]⟩
      rw [inRange_iff]
      refine ⟨by simp; omega, ?_⟩
      intro j hj
      have hjP : j ∈ P := hperm.mem_iff.2 (by simpa using hj)
      obtain ⟨i, hi, rfl⟩ := List.getElem_of_mem hjP
      rw [hget i hi]
      have := (inRange_iff.1 g2).2 i (by rw [hdR]; simpa using hi)
      have e : dR.getD i 0 = dims.getD P[i] 0 := by
        rw [hdR]; simp [List.getD, List.getElem?_eq_getElem hi]
      rw [e] at this; exact this
    · exact ⟨[], fun h => absurd h hk⟩
  choose nat hnat using hnat
  have hread : ∀ k, k < dims.prod → readRot data dR inv k = .ok (elemAt data dims (nat k)) := by
    intro k hk
    obtain ⟨g1, g2⟩ := hnat k hk
    have := rotateFlatIndexPerm_perm g1 h1 P inv hperm i1
    rw [← hdR, g2] at this
    have hlt : rowMajor (nat k) dims < data.length := by rw [hdata]; exact rowMajor_lt g1
    simp [readRot, this, toRes, bind, Except.bind, List.getElem?_eq_getElem hlt, elemAt, List.getD]
  have hkm : iDims.mapM (fun i => toRes dims[i]?) = .ok kept := by
    apply mapM_ok
    intro i hi
    have := hb i hi
    simp [toRes, List.getD, List.getElem?_eq_getElem this]
  have hrm : P.mapM (fun i => toRes dims[i]?) = .ok dR := by
    apply mapM_ok
    intro i hi
    have := hPb i hi
    simp [toRes, List.getD, List.getElem?_eq_getElem this]
  have hidx : ∀ i < kept.prod, ∀ j < dO.prod, i * dO.prod + j < dims.prod := by
    intro i hi j hj
    rw [← hsplit]
    have : (i + 1) * dO.prod ≤ kept.prod * dO.prod := Nat.mul_le_mul_right _ hi
    rw [Nat.add_mul, Nat.one_mul] at this; omega
  have hdcq : dims.prod / kept.prod = dO.prod := by
    rw [← hsplit]; exact Nat.mul_div_cancel_left _ hkp
  let cellv : Nat → α := fun i =>
    ((List.range' 1 (dO.prod - 1)).map fun j => elemAt data dims (nat (i * dO.prod + j))).foldl op
      (elemAt data dims (nat (i * dO.prod + 0)))
  have hcol : collapse op data dims iDims order
      = .ok ((List.replicate kept.prod (0:α)).mapIdx fun i _ => cellv i) := by
    unfold collapse
    rw [hkm]
    simp only [bind, Except.bind, foldl_mul_eq, Nat.one_mul]
    rw [if_neg (by omega), permRot_eq dims.length iDims hb hnd]
    simp only [← hO, ← hP]
    rw [hrm]
    simp only [i1, toRes, hdcq]
    rw [runLoop_perm _ (fun i _ => cellv i) _ _ (by simpa using hord)]
    intro i hi
    have hi : i < kept.prod := by simpa using hi
    rw [hread _ (hidx i hi 0 hdc)]
    simp only
    exact foldlM_read op _ (fun j => elemAt data dims (nat (i * dO.prod + j))) _ _
      (fun j hj => hread _ (hidx i hi j (by simp at hj; omega)))
  refine ⟨_, hcol, by simp, ?_⟩
  intro a ha
  have hal := rowMajor_lt ha
  set r := rowMajor a kept with hr
  refine ⟨(List.range dO.prod).map (fun j => nat (r * dO.prod + j)), ?_, ?_, ?_, ?_⟩
  · rw [List.nodup_map_iff_inj_on List.nodup_range]
    intro x hx y hy hxy
    have g1 := (hnat _ (hidx r hal x (by simpa using hx))).2
    have g2 := (hnat _ (hidx r hal y (by simpa using hy))).2
    rw [hxy, g2] at g1
    omega
  · intro m
    simp only [List.mem_map, List.mem_range]
    constructor
    · rintro ⟨j, hj, rfl⟩
      obtain ⟨g1, g2⟩ := hnat _ (hidx r hal j hj)
      refine ⟨g1, ?_⟩
      have hi1 := inRange_map g1 hb
      have hi2 : InRange (O.map ((nat (r * dO.prod + j)).getD · 0)) dO :=
        inRange_map g1 (fun i hi => hPb i (by rw [hP]; simp [hi]))
      rw [hP, List.map_append, hdRapp, rowMajor_append (by simp [hkept]) (by simp [hdO])] at g2
      obtain ⟨e1, -⟩ := blockInj (rowMajor_lt hi2) hj g2
      exact rowMajor_inj hi1 ha e1
    · rintro ⟨g1, g2⟩
      have hi2 : InRange (O.map (m.getD · 0)) dO :=
        inRange_map g1 (fun i hi => hPb i (by rw [hP]; simp [hi]))
      refine ⟨rowMajor (O.map (m.getD · 0)) dO, rowMajor_lt hi2, ?_⟩
      obtain ⟨k1, k2⟩ := hnat _ (hidx r hal _ (rowMajor_lt hi2))
      have e : rowMajor (P.map (m.getD · 0)) dR = r * dO.prod + rowMajor (O.map (m.getD · 0)) dO := by
        rw [hP, List.map_append, hdRapp, rowMajor_append (by simp [hkept]) (by simp [hdO]), g2]
      rw [← e] at k2 ⊢
      have := rowMajor_inj (inRange_map (e ▸ k1) hPb) (inRange_map g1 hPb) k2
      apply List.ext_getElem
      · rw [(e ▸ k1 : InRange _ dims).length_eq, g1.length_eq]
      · intro i q1 q2
        have hiP : i ∈ P := hperm.mem_iff.2 (by rw [g1.length_eq] at q2; simpa using q2)
        obtain ⟨t, ht, rfl⟩ := List.getElem_of_mem hiP
        have hh := congrArg (fun l => l[t]?) this
        simp only [List.getElem?_map, List.getElem?_eq_getElem ht, Option.map_some] at hh
        have hh := Option.some.inj hh
        rwa [List.getD_eq_getElem _ _ q1, List.getD_eq_getElem _ _ q2] at hh
  · have hrange : List.range dO.prod = 0 :: List.range' 1 (dO.prod - 1) := by
      rw [List.range_eq_range']
      obtain ⟨n, hn⟩ : ∃ n, dO.prod = n + 1 := ⟨dO.prod - 1, by omega⟩
      rw [hn, List.range'_succ]; simp
    rw [List.getElem?_mapIdx, List.getElem?_replicate_of_lt hal]
    simp only [Option.map_some, List.map_map, hrange, List.map_cons, reduceList]
    rfl
  · intro h
    have := congrArg List.length h
    simp at this; omega

end Verif.Collapse
