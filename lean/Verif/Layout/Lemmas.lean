import Verif.Layout.Model
import Verif.Mpi.Props
import Verif.Index.Props
import Mathlib.Data.List.Forall2
import Mathlib.Tactic.Ring

/-! Facts about stored vectors and positions. -/
namespace Verif.Layout
open Verif Verif.Index

variable {α : Type}

theorem puts_spec (ws : List (ℤ × α)) : ∀ (l : List α), (∀ w ∈ ws, 0 ≤ w.1 ∧ w.1 < l.length) →
    (∀ w ∈ ws, ∀ w' ∈ ws, w.1 = w'.1 → w.2 = w'.2) →
    ∃ l', puts l ws = .ok l' ∧ l'.length = l.length ∧ (∀ w ∈ ws, l'[w.1.toNat]? = some w.2) ∧
      ∀ p : Nat, (∀ w ∈ ws, w.1 ≠ p) → l'[p]? = l[p]? := by
  induction ws with
  | nil => intro l _ _; exact ⟨l, rfl, rfl, by simp, fun _ _ => rfl⟩
  | cons w ws ih =>
    intro l hb hf
    have hw := hb w (by simp)
    obtain ⟨l', e, hlen, hin, hout⟩ := ih (l.set w.1.toNat w.2)
      (fun w' h' => by rw [List.length_set]; exact hb w' (by simp [h']))
      (fun w' h' w'' h'' => hf w' (by simp [h']) w'' (by simp [h'']))
    refine ⟨l', ?_, by rw [hlen, List.length_set], ?_, ?_⟩
    · show (put l w.1 w.2 >>= fun l => puts l ws) = _
      rw [put, if_pos hw]
      exact e
    · intro w' h'
      rw [List.mem_cons] at h'
      rcases h' with rfl | h'
      · by_cases hex : ∃ w'' ∈ ws, w''.1 = w'.1
        · obtain ⟨w'', h'', e''⟩ := hex
          rw [← e'', hin w'' h'', hf w'' (by simp [h'']) w' (by simp) e'']
        · rw [hout w'.1.toNat (fun w'' h'' hh => hex ⟨w'', h'', by omega⟩),
            List.getElem?_set_self (by omega)]
      · exact hin w' h'
    · intro p hp
      rw [hout p (fun w' h' => hp w' (by simp [h']))]
      have := hp w (by simp)
      rw [List.getElem?_set_ne (by omega)]

theorem mem_intRange (a b i : ℤ) : i ∈ intRange a b ↔ a ≤ i ∧ i ≤ b := by
  unfold intRange
  rw [List.mem_map]
  constructor
  · rintro ⟨k, hk, rfl⟩; rw [List.mem_range] at hk; omega
  · rintro ⟨h1, h2⟩; exact ⟨(i - a).toNat, by rw [List.mem_range]; omega, by omega⟩

theorem prod_ones (T : List Nat) (h : ∀ x ∈ T, x = 1) : T.prod = 1 := by
  induction T with
  | nil => rfl
  | cons x xs ih => rw [List.prod_cons, h x (by simp), ih (fun y hy => h y (by simp [hy]))]

theorem rowMajor_append : ∀ (i d j e : List Nat), i.length = d.length →
    rowMajor (i ++ j) (d ++ e) = rowMajor i d * e.prod + rowMajor j e
  | [], [], j, e, _ => by simp [rowMajor]
  | i :: is, d :: ds, j, e, h => by
    have h' : is.length = ds.length := by simpa using h
    simp only [List.cons_append, rowMajor, rowMajor_append is ds j e h', List.prod_append]
    ring
  | [], _ :: _, _, _, h => by simp at h
  | _ :: _, [], _, _, h => by simp at h

theorem rowMajor_zero : ∀ (d : List Nat) (m : Nat), rowMajor (List.replicate m 0) d = 0
  | [], m => by cases m <;> rfl
  | d :: ds, 0 => rfl
  | d :: ds, m + 1 => by
    rw [List.replicate_succ, rowMajor, rowMajor_zero ds m]; simp

theorem inRange_zero (m : Nat) : InRange (List.replicate m 0) (List.replicate m 1) := by
  induction m with
  | zero => exact List.Forall₂.nil
  | succ m ih => exact List.Forall₂.cons (by omega) ih

theorem inRange_append {i d j e : List Nat} (h : InRange i d) (h' : InRange j e) :
    InRange (i ++ j) (d ++ e) := List.rel_append h h'

/-- The reduced dimensions, when the vectorised ones are consecutive. -/
theorem reduceDims_eq (O P T : List Nat) :
    reduceDims (O ++ P ++ T) ((List.range P.length).map (O.length + ·)) =
      (O ++ List.replicate P.length 1 ++ T, P.prod) := by
  have key : ∀ (P D : List Nat) (q : Nat), ((List.range P.length).map (D.length + ·)).foldl
      (fun (s : List Nat × Nat) i => (s.1.set i 1, s.2 * s.1.getD i 0)) (D ++ P ++ T, q) =
      (D ++ List.replicate P.length 1 ++ T, q * P.prod) := by
    intro P
    induction P with
    | nil => intro D q; simp
    | cons x xs ih =>
      intro D q
      rw [List.length_cons, List.range_succ_eq_map, List.map_cons, List.foldl_cons]
      have e1 : (D ++ x :: xs ++ T).set (D.length + 0) 1 = (D ++ [1]) ++ xs ++ T := by
        simp [List.append_assoc]
      have e2 : (D ++ x :: xs ++ T).getD (D.length + 0) 0 = x := by
        simp [List.getD, List.append_assoc]
      dsimp only
      rw [e1, e2]
      have e3 : ((List.range xs.length).map Nat.succ).map (D.length + ·) =
          (List.range xs.length).map ((D ++ [1]).length + ·) := by
        rw [List.map_map]; apply List.map_congr_left; intro k _; simp; omega
      rw [e3, ih (D ++ [1]) (q * x)]
      simp [List.replicate_succ, List.append_assoc, Nat.mul_assoc]
  have := key P O 1
  rw [Nat.one_mul] at this
  exact this

theorem getFlatSize_pos (l : List Nat) (h : l ≠ []) : getFlatSize l = some l.prod := by
  cases l with
  | nil => exact absurd rfl h
  | cons d ds => exact c01_flat_size d ds

/-- The general statement: outer dimensions `O`, vectorised dimensions `P`, and `m` trailing dimensions of
extent one. -/
theorem run_entry [Zero α] {mode : Mode} {cls : Cls} (O P : List Nat) (m : Nat) (hO : O ≠ [])
    (hvd : vecDims mode cls = (List.range P.length).map (O.length + ·))
    {need : List Nat → Bool} {store : Nat → List Nat → Res (List α)} (vals : List Nat → List α)
    (hst : ∀ o, InRange o O → need (o ++ List.replicate P.length 0 ++ List.replicate m 0) = true →
      store P.prod (o ++ List.replicate P.length 0 ++ List.replicate m 0) = .ok (vals o) ∧
      (vals o).length = P.prod)
    {ws nodes : Nat} {small : α → Bool} {sched : Nat → Nat → List (Nat × Nat)}
    (hws : 0 < ws) (hn : 0 < nodes) (hsm : small 0 = true)
    (hs : Mpi.ValidSchedule ⟨ws, nodes, O.prod, P.prod⟩ ((O.prod + nodes - 1) / nodes) sched) :
    ∃ out, run mode cls (O ++ P ++ List.replicate m 1) need store ws nodes small sched = .ok out ∧
      out.length = numElems (O ++ P ++ List.replicate m 1) ∧
      ∀ o p, InRange o O → InRange p P →
        out[rowMajor (o ++ p ++ List.replicate m 0) (O ++ P ++ List.replicate m 1)]? =
          if need (o ++ List.replicate P.length 0 ++ List.replicate m 0) then (vals o)[rowMajor p P]? else some 0 := by
  have hred := reduceDims_eq O P (List.replicate m 1)
  rw [← hvd] at hred
  have hprod : (O ++ List.replicate P.length 1 ++ List.replicate m 1).prod = O.prod := by simp
  have hflat : getFlatSize (O ++ List.replicate P.length 1 ++ List.replicate m 1) = some O.prod := by
    rw [getFlatSize_pos _ (by simp [hO]), hprod]
  -- what a task returns
  have htask : ∀ o, InRange o O → getValue (O ++ List.replicate P.length 1 ++ List.replicate m 1) P.prod need
      (store P.prod) (rowMajor o O) = .ok (if need (o ++ List.replicate P.length 0 ++ List.replicate m 0) then vals o
        else List.replicate P.prod 0) := by
    intro o ho
    have hr : InRange (o ++ List.replicate P.length 0 ++ List.replicate m 0)
        (O ++ List.replicate P.length 1 ++ List.replicate m 1) :=
      inRange_append (inRange_append ho (inRange_zero _)) (inRange_zero _)
    have hpos : rowMajor (o ++ List.replicate P.length 0 ++ List.replicate m 0)
        (O ++ List.replicate P.length 1 ++ List.replicate m 1) = rowMajor o O := by
      rw [rowMajor_append _ _ _ _ (by simp [ho.length_eq]), rowMajor_append _ _ _ _ ho.length_eq,
        rowMajor_zero, rowMajor_zero]
      simp
    have hm := getMultIndex_rowMajor hr (by
      rw [List.length_append, List.length_append]
      have := List.length_pos_iff.2 hO
      omega)
    rw [hpos] at hm
    unfold getValue
    rw [hm]
    dsimp only
    by_cases hnd : need (o ++ List.replicate P.length 0 ++ List.replicate m 0) = true
    · rw [if_pos hnd, if_pos hnd, (hst o ho hnd).1]
    · rw [if_neg hnd, if_neg hnd]
  have hlen : ∀ o, InRange o O → (if need (o ++ List.replicate P.length 0 ++ List.replicate m 0) then vals o
        else List.replicate P.prod 0).length = P.prod := by
    intro o ho
    by_cases hnd : need (o ++ List.replicate P.length 0 ++ List.replicate m 0) = true
    · rw [if_pos hnd]; exact (hst o ho hnd).2
    · rw [if_neg hnd]; simp
  obtain ⟨out, e, hol, hent⟩ := Mpi.c09_entry ⟨ws, nodes, O.prod, P.prod⟩
    (fun t => match getValue (O ++ List.replicate P.length 1 ++ List.replicate m 1) P.prod need
      (store P.prod) t with
        | .ok l => l
        | .error _ => []) small sched hws hn (by
      intro t ht
      obtain ⟨o, _, ho, ht'⟩ := getMultIndex_spec t O (List.length_pos_iff.2 hO) ht
      dsimp only
      rw [← ht', htask o ho]
      exact hlen o ho) hsm hs
  refine ⟨out, ?_, ?_, ?_⟩
  · unfold run
    rw [hred]
    dsimp only
    rw [hflat]
    exact e
  · rw [hol, numElems]; simp
  · intro o p ho hp
    have hpos : rowMajor (o ++ p ++ List.replicate m 0) (O ++ P ++ List.replicate m 1) =
        rowMajor o O * P.prod + rowMajor p P := by
      rw [rowMajor_append _ _ _ _ (by simp [ho.length_eq, hp.length_eq]), rowMajor_append _ _ _ _ ho.length_eq,
        rowMajor_zero]
      simp
    rw [hpos, hent _ (rowMajor_lt ho) _ (rowMajor_lt hp), htask o ho]
    dsimp only
    by_cases hnd : need (o ++ List.replicate P.length 0 ++ List.replicate m 0) = true
    · rw [if_pos hnd, if_pos hnd]
    · rw [if_neg hnd, if_neg hnd]
      simp [rowMajor_lt hp]

end Verif.Layout
