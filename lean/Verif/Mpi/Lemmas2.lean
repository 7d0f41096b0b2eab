import Verif.Mpi.Lemmas

namespace Verif.Mpi
open Verif

variable {α : Type}

theorem ceil_cover (dims nodes : Nat) (h : 0 < nodes) : dims ≤ nodes * ((dims + nodes - 1) / nodes) := by
  have h1 := Nat.div_add_mod (dims + nodes - 1) nodes
  have h2 := Nat.mod_lt (dims + nodes - 1) h
  omega

theorem range_map_mul (b nomp nvec : Nat) (f : Nat → Nat → α) (hb : b = nomp * nvec) :
    (List.range b).map (fun j => f (j / nvec) (j % nvec))
      = (List.range nomp).flatMap (fun o => (List.range nvec).map (f o)) := by
  subst hb
  have h : (List.range (nomp * nvec)).map (fun j => f (j / nvec) (j % nvec))
      = (List.range (nomp * nvec)).flatMap (fun j => [f (j / nvec) (j % nvec)]) := by
    simp [List.flatMap, List.map_map, List.flatten_singleton]
    induction (List.range (nomp * nvec)) with
    | nil => rfl
    | cons a l ih => simp [ih]
  rw [h, flatMap_range_mul]
  apply List.flatMap_congr
  intro o _
  have : ∀ l : List Nat, (∀ k ∈ l, k < nvec) →
      l.flatMap (fun j => [f ((o * nvec + j) / nvec) ((o * nvec + j) % nvec)]) = l.map (f o) := by
    intro l hl
    induction l with
    | nil => rfl
    | cons a l ih =>
      have ha : a < nvec := hl a (by simp)
      have hp : 0 < nvec := by omega
      rw [List.flatMap_cons, ih (fun k hk => hl k (by simp [hk])), List.map_cons]
      rw [Nat.mul_comm, Nat.mul_add_div hp, Nat.div_eq_of_lt ha, Nat.add_zero, Nat.mul_add_mod,
        Nat.mod_eq_of_lt ha]
      rfl
  exact this _ (fun k hk => by simpa using hk)

theorem map_getD_range [Zero α] (l : List α) (n : Nat) (h : l.length = n) :
    (List.range n).map (fun k => l.getD k 0) = l := by
  subst h
  apply List.ext_getElem
  · simp
  · intro i h1 h2; simp at h1 h2 ⊢
    rw [List.getElem?_eq_getElem h2]; rfl

theorem blocks_eq [Zero α] (c : Cfg) (val : Nat → List α) (nomp : Nat)
    (hval : ∀ i < c.dims, (val i).length = c.nvec) (hcov : c.dims ≤ c.nodes * nomp) :
    (List.range c.nodes).flatMap (block c val nomp)
      = sequential c.dims val ++ List.replicate ((c.nodes * nomp - c.dims) * c.nvec) 0 := by
  have h1 : ∀ i, block c val nomp i = (List.range nomp).flatMap (fun o =>
      (List.range c.nvec).map fun k =>
        if i * nomp + o < c.dims then (val (i * nomp + o)).getD k 0 else 0) := by
    intro i
    exact range_map_mul _ nomp c.nvec
      (fun o k => if i * nomp + o < c.dims then (val (i * nomp + o)).getD k 0 else 0) rfl
  have h2 : (List.range c.nodes).flatMap (block c val nomp)
      = (List.range (c.nodes * nomp)).flatMap (fun f =>
        (List.range c.nvec).map fun k => if f < c.dims then (val f).getD k 0 else 0) := by
    rw [flatMap_range_mul]
    exact List.flatMap_congr (fun i _ => h1 i)
  obtain ⟨m, hm⟩ := Nat.exists_eq_add_of_le hcov
  rw [h2, hm, flatMap_range_split]
  congr 1
  · apply List.flatMap_congr
    intro i hi
    have hi : i < c.dims := by simpa using hi
    simp only [hi, if_true]
    exact map_getD_range _ _ (hval i hi)
  · rw [Nat.add_sub_cancel_left]
    have : ∀ j ∈ List.range m, (List.range c.nvec).map (fun k =>
        if c.dims + j < c.dims then (val (c.dims + j)).getD k 0 else (0 : α))
        = List.replicate c.nvec 0 := by
      intro j _
      simp
    rw [List.flatMap_congr this]
    clear this h2 hm h1
    induction m with
    | zero => simp
    | succ m ih =>
      rw [List.range_succ, List.flatMap_append, ih]
      rw [Nat.add_mul, Nat.one_mul, List.replicate_add]
      simp only [List.flatMap_cons, List.flatMap_nil, List.append_nil]

theorem sequential_length (dims n : Nat) (val : Nat → List α) (hval : ∀ i < dims, (val i).length = n) :
    (sequential dims val).length = dims * n := by
  unfold sequential
  exact length_flatMap_range _ _ _ hval

theorem calculate_eq [Zero α] (c : Cfg) (val : Nat → List α) (small : α → Bool)
    (sched : Nat → Nat → List (Nat × Nat)) (nomp : Nat)
    (hws : 0 < c.ws) (hnodes : 0 < c.nodes) (hnomp : nOmp c = .ok nomp)
    (hval : ∀ i < c.dims, (val i).length = c.nvec) (hsmall : small 0 = true)
    (hs : ValidSchedule c nomp sched) :
    calculate c val small sched = .ok (sequential c.dims val) := by
  have hcov : c.dims ≤ c.nodes * nomp := by
    rw [nOmp, if_neg (by omega)] at hnomp
    cases hnomp; exact ceil_cover _ _ hnodes
  have hrank := fun r (hr : r < c.ws) =>
    rankLoop_spec c val nomp r (sched r) hr hval (hs r) c.nodes (le_refl _)
  -- final buffers
  choose! it buf hb1 hb2 hb3 hb4 hb5 using hrank
  set B := nomp * c.nvec with hB
  set q := c.nodes / c.ws with hq
  have hm : (List.range c.ws).mapM (fun r => do
      let st ← rankLoop c val nomp r (sched r) c.nodes (0, initBuffer c nomp)
      (.ok st.2 : Res (List α))) = .ok ((List.range c.ws).map buf) := by
    apply mapM_ok
    intro r hr
    have hr : r < c.ws := by simpa using hr
    rw [hb1 r hr]; rfl
  have hcount : c.ws * (B * (q + 1)) ≤ B * (c.nodes - c.nodes % c.ws + c.ws) := by
    have h1 : c.nodes - c.nodes % c.ws = c.ws * q := by
      have : c.ws * q + c.nodes % c.ws = c.nodes := Nat.div_add_mod c.nodes c.ws
      omega
    rw [h1]
    apply Nat.le_of_eq; ring
  have hg : allgather c B ((List.range c.ws).map buf)
      = .ok ((List.range c.ws).flatMap buf) := by
    unfold allgather
    rw [← hq, if_pos]
    · congr 1
      rw [List.flatMap_map]
      apply List.flatMap_congr
      intro r hr
      have hr : r < c.ws := by simpa using hr
      exact List.take_of_length_le (by rw [hb2 r hr])
    · simp only [List.length_map, List.length_range, Bool.and_eq_true, decide_eq_true_eq]
      refine ⟨?_, hcount⟩
      rw [List.all_eq_true]
      intro l hl
      obtain ⟨r, hr, rfl⟩ := List.mem_map.1 hl
      have hr : r < c.ws := by simpa using hr
      simp [hb2 r hr]
  have hlen : ((List.range c.ws).flatMap buf).length = c.ws * ((q + 1) * B) := by
    rw [length_flatMap_range buf (B * (q + 1)) c.ws hb2, Nat.mul_comm B]
  have hreo := reorder_spec c val nomp ((List.range c.ws).flatMap buf) hws (by rw [hlen])
    (by
      intro r hr s hsq j hj
      have hin : s * B + j < B * (q + 1) := by
        rw [Nat.mul_comm B]; exact block_lt (by omega) hj
      have := getElem?_flatMap_range buf (B * (q + 1)) c.ws r (s * B + j) hb2 hr hin
      have e : (r * (q + 1) + s) * B + j = r * (B * (q + 1)) + (s * B + j) := by ring
      rw [← hB, ← hq, e, this]
      exact hb5 r hr s hsq j hj)
  have hseq := sequential_length c.dims c.nvec val hval
  unfold calculate
  rw [hnomp]
  simp only [bind, Except.bind] at hm ⊢
  rw [hm]
  simp only
  rw [hg]
  simp only
  rw [hreo]
  simp only
  rw [blocks_eq c val nomp hval hcov]
  have hd : (sequential c.dims val ++ List.replicate ((c.nodes * nomp - c.dims) * c.nvec) 0).drop
      (c.dims * c.nvec) = List.replicate ((c.nodes * nomp - c.dims) * c.nvec) 0 := by
    rw [← hseq, List.drop_left]
  have ht : (sequential c.dims val ++ List.replicate ((c.nodes * nomp - c.dims) * c.nvec) 0).take
      (c.dims * c.nvec) = sequential c.dims val := by
    rw [← hseq, List.take_left]
  rw [hd, ht, if_pos]
  · have : c.dims * c.nvec -
        (sequential c.dims val ++ List.replicate ((c.nodes * nomp - c.dims) * c.nvec) (0 : α)).length = 0 := by
      rw [List.length_append, hseq]; omega
    rw [this]; simp
  · rw [List.all_eq_true]
    intro x hx
    rw [(List.mem_replicate.1 hx).2]; exact hsmall

end Verif.Mpi
