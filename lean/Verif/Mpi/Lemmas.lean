import Verif.Mpi.Spec
import Verif.Util.Lists
import Verif.Index.Lemmas2

namespace Verif.Mpi
open Verif

variable {α : Type}

/-- Contents of the cell `j` of the block computed for `iMpi`. -/
def cell [Zero α] (c : Cfg) (val : Nat → List α) (nomp i j : Nat) : α :=
  if i * nomp + j / c.nvec < c.dims then (val (i * nomp + j / c.nvec)).getD (j % c.nvec) 0 else 0

theorem mem_writeEvents {c : Cfg} {nomp i : Nat} {e : Nat × Nat} :
    e ∈ writeEvents c nomp i ↔ e.1 < nomp ∧ e.2 < c.nvec ∧ i * nomp + e.1 < c.dims := by
  obtain ⟨a, b⟩ := e
  simp only [writeEvents, List.mem_flatMap, List.mem_range]
  constructor
  · rintro ⟨x, hx, h⟩
    split at h
    · simp at h; obtain ⟨k, rfl, rfl⟩ := h; simp_all
    · simp at h
  · rintro ⟨h1, h2, h3⟩
    exact ⟨a, h1, by simp [h3, h2]⟩

theorem nodup_writeEvents (c : Cfg) (nomp i : Nat) : (writeEvents c nomp i).Nodup := by
  unfold writeEvents
  rw [List.nodup_flatMap]
  constructor
  · intro x _
    split
    · exact (List.nodup_range).map (fun a b h => by simpa using h)
    · simp
  · rw [List.pairwise_iff_getElem]
    intro a b ha hb hab
    simp only [List.getElem_range, Function.onFun]
    intro e h1 h2
    split at h1
    · split at h2
      · obtain ⟨k, -, rfl⟩ := List.mem_map.1 h1
        obtain ⟨k', -, h⟩ := List.mem_map.1 h2
        simp at h; omega
      · simp at h2
    · simp at h1

/-- Writing distinct slots in any order. -/
theorem foldlM_write {ε : Type} (f : ε → Nat) (g : ε → α) (step : List α → ε → Res (List α))
    (L : Nat) (evs : List ε)
    (hstep : ∀ b, b.length = L → ∀ e ∈ evs, step b e = .ok (b.set (f e) (g e)))
    (hb : ∀ e ∈ evs, f e < L) (hinj : evs.Pairwise (fun a b => f a ≠ f b)) (buf : List α)
    (hbuf : buf.length = L) :
    ∃ out, evs.foldlM step buf = .ok out ∧ out.length = L ∧
      (∀ e ∈ evs, out[f e]? = some (g e)) ∧
      (∀ p, (∀ e ∈ evs, f e ≠ p) → out[p]? = buf[p]?) := by
  induction evs generalizing buf with
  | nil => exact ⟨buf, rfl, hbuf, by simp, by simp⟩
  | cons e es ih =>
    rw [List.pairwise_cons] at hinj
    obtain ⟨out, h1, h2, h3, h4⟩ := ih (fun b hbl x hx => hstep b hbl x (by simp [hx]))
      (fun x hx => hb x (by simp [hx])) hinj.2 (buf.set (f e) (g e)) (by simpa using hbuf)
    refine ⟨out, ?_, h2, ?_, ?_⟩
    · rw [List.foldlM_cons, hstep buf hbuf e (by simp)]; exact h1
    · intro x hx
      rcases List.mem_cons.1 hx with rfl | hx
      · rw [h4 _ (fun y hy => (hinj.1 y hy).symm), List.getElem?_set_self]
        rw [hbuf]; exact hb _ (by simp)
      · exact h3 x hx
    · intro p hp
      rw [h4 p (fun y hy => hp y (by simp [hy])), List.getElem?_set_ne (hp e (by simp))]

theorem block_lt {s q b j : Nat} (hs : s < q) (hj : j < b) : s * b + j < q * b := by
  have : (s + 1) * b ≤ q * b := Nat.mul_le_mul_right _ hs
  rw [Nat.add_mul, Nat.one_mul] at this; omega

theorem block_inj {s s' b j j' : Nat} (hj : j < b) (hj' : j' < b) (h : s * b + j = s' * b + j') :
    s = s' ∧ j = j' := by
  have hb : 0 < b := by omega
  have h1 : (s * b + j) / b = s := by
    rw [Nat.mul_comm, Nat.mul_add_div hb, Nat.div_eq_of_lt hj, Nat.add_zero]
  have h2 : (s' * b + j') / b = s' := by
    rw [Nat.mul_comm, Nat.mul_add_div hb, Nat.div_eq_of_lt hj', Nat.add_zero]
  have : s = s' := by rw [← h1, ← h2, h]
  subst this
  exact ⟨rfl, by omega⟩

/-- The invariant of a rank's loop. -/
theorem rankLoop_spec [Zero α] (c : Cfg) (val : Nat → List α) (nomp r : Nat)
    (sched : Nat → List (Nat × Nat)) (hr : r < c.ws)
    (hval : ∀ i < c.dims, (val i).length = c.nvec)
    (hs : ∀ i, (sched i).Perm (writeEvents c nomp i)) (n : Nat) (hn : n ≤ c.nodes) :
    ∃ it buf, rankLoop c val nomp r sched n (0, initBuffer c nomp) = .ok (it, buf) ∧
      buf.length = nomp * c.nvec * (c.nodes / c.ws + 1) ∧
      it * c.ws + r < n + c.ws ∧ n ≤ it * c.ws + r ∧
      ∀ s ≤ c.nodes / c.ws, ∀ j < nomp * c.nvec,
        buf[s * (nomp * c.nvec) + j]? =
          some (if s * c.ws + r < n then cell c val nomp (s * c.ws + r) j else 0) := by
  induction n with
  | zero =>
    refine ⟨0, _, rfl, by simp [initBuffer], by simpa using hr, by omega, ?_⟩
    intro s hs j hj
    have : s * (nomp * c.nvec) + j < nomp * c.nvec * (c.nodes / c.ws + 1) := by
      rw [Nat.mul_comm (nomp * c.nvec)]; exact block_lt (by omega) hj
    simp [initBuffer, List.getElem?_replicate, this]
  | succ n ih =>
    obtain ⟨it, buf, h1, h2, h3, h4, h5⟩ := ih (by omega)
    have hws : 0 < c.ws := by omega
    by_cases hm : n % c.ws = r
    · -- the rank works on `n`
      have hit : it * c.ws + r = n := by
        have hdiv := Nat.div_add_mod n c.ws
        rw [hm, Nat.mul_comm] at hdiv
        have hlt : it * c.ws < (n / c.ws + 1) * c.ws := by rw [Nat.add_mul, Nat.one_mul]; omega
        have hge : n / c.ws * c.ws ≤ it * c.ws := by omega
        have e1 := Nat.lt_of_mul_lt_mul_right hlt
        have e2 := Nat.le_of_mul_le_mul_right hge hws
        have : it = n / c.ws := by omega
        rw [this]; exact hdiv
      have hitq : it ≤ c.nodes / c.ws := by
        rw [Nat.le_div_iff_mul_le hws]; omega
      let B := nomp * c.nvec
      have hidx : ∀ e : Nat × Nat, (it * nomp + e.1) * c.nvec + e.2 = it * B + (e.1 * c.nvec + e.2) := by
        intro e; simp only [B]; ring
      have hin : ∀ e ∈ sched n, e.1 < nomp ∧ e.2 < c.nvec ∧ n * nomp + e.1 < c.dims := by
        intro e he; exact mem_writeEvents.1 ((hs n).mem_iff.1 he)
      have hjb : ∀ e ∈ sched n, e.1 * c.nvec + e.2 < B := by
        intro e he
        obtain ⟨g1, g2, -⟩ := hin e he
        exact block_lt g1 g2
      obtain ⟨out, o1, o2, o3, o4⟩ := foldlM_write
        (f := fun e : Nat × Nat => (it * nomp + e.1) * c.nvec + e.2)
        (g := fun e => (val (n * nomp + e.1)).getD e.2 0)
        (step := writeOne c val nomp n it) (L := nomp * c.nvec * (c.nodes / c.ws + 1)) (sched n)
        (by
          intro b hb e he
          obtain ⟨g1, g2, g3⟩ := hin e he
          have hl : e.2 < (val (n * nomp + e.1)).length := by rw [hval _ g3]; exact g2
          have hp : (it * nomp + e.1) * c.nvec + e.2 < b.length := by
            rw [hb, hidx, Nat.mul_comm B]
            exact block_lt (by omega) (hjb e he)
          simp [writeOne, hl, hp, List.getD])
        (by
          intro e he
          show (it * nomp + e.1) * c.nvec + e.2 < B * (c.nodes / c.ws + 1)
          rw [hidx, Nat.mul_comm B]; exact block_lt (by omega) (hjb e he))
        (by
          have hnd : (sched n).Nodup := (hs n).nodup_iff.2 (nodup_writeEvents c nomp n)
          have : (sched n).Pairwise (fun a b => a ∈ sched n ∧ b ∈ sched n ∧ a ≠ b) := by
            rw [List.pairwise_iff_getElem]
            intro a b ha hb hab
            exact ⟨List.getElem_mem _, List.getElem_mem _,
              fun h => by have := (List.Nodup.getElem_inj_iff hnd).1 h; omega⟩
          refine this.imp ?_
          rintro ⟨a1, a2⟩ ⟨b1, b2⟩ ⟨ha, hb, hne⟩ heq
          obtain ⟨g1, g2, -⟩ := hin _ ha
          obtain ⟨k1, k2, -⟩ := hin _ hb
          obtain ⟨e1, e2⟩ := block_inj g2 k2 heq
          apply hne
          simp only at e1 e2
          have : a1 = b1 := by omega
          rw [this, e2])
        buf h2
      refine ⟨it + 1, out, ?_, o2, ?_, ?_, ?_⟩
      · rw [rankLoop, h1]
        simp only [bind, Except.bind, hm, if_true, o1]
      · rw [Nat.add_mul, Nat.one_mul]; omega
      · rw [Nat.add_mul, Nat.one_mul]; omega
      · intro s hsq j hj
        by_cases hsi : s = it
        · subst hsi
          rw [if_pos (by omega), hit]
          have hnv : 0 < c.nvec := by
            rcases Nat.eq_zero_or_pos c.nvec with h | h
            · simp [h] at hj
            · exact h
          have hjo : j / c.nvec < nomp := by rw [Nat.div_lt_iff_lt_mul hnv]; exact hj
          have hjm : j % c.nvec < c.nvec := Nat.mod_lt _ hnv
          have hjd : j / c.nvec * c.nvec + j % c.nvec = j := by
            rw [Nat.mul_comm]; exact Nat.div_add_mod _ _
          unfold cell
          by_cases hd : n * nomp + j / c.nvec < c.dims
          · rw [if_pos hd]
            have := o3 (j / c.nvec, j % c.nvec) ((hs n).mem_iff.2 (mem_writeEvents.2 ⟨hjo, hjm, hd⟩))
            simp only at this
            rw [hidx (j / c.nvec, j % c.nvec)] at this
            simp only [hjd] at this
            exact this
          · rw [if_neg hd, o4, h5 s hsq j hj, if_neg (by omega)]
            intro e he heq
            rw [hidx e] at heq
            obtain ⟨-, e2⟩ := block_inj (hjb e he) hj heq
            obtain ⟨g1, g2, g3⟩ := hin e he
            apply hd
            have : j / c.nvec = e.1 := by
              rw [← e2, Nat.mul_comm, Nat.mul_add_div hnv, Nat.div_eq_of_lt g2, Nat.add_zero]
            rw [this]; exact g3
        · rw [o4, h5 s hsq j hj]
          · have hne : s * c.ws + r ≠ n := by
              intro h
              apply hsi
              have : s * c.ws = it * c.ws := by omega
              exact Nat.eq_of_mul_eq_mul_right hws this
            by_cases hlt : s * c.ws + r < n
            · rw [if_pos hlt, if_pos (by omega)]
            · rw [if_neg hlt, if_neg (by omega)]
          · intro e he heq
            rw [hidx e] at heq
            exact hsi (block_inj (hjb e he) hj heq).1.symm
    · refine ⟨it, buf, ?_, h2, by omega, ?_, ?_⟩
      · rw [rankLoop, h1]
        simp only [bind, Except.bind, hm, if_false]
      · rcases Nat.lt_or_ge n (it * c.ws + r) with h | h
        · omega
        · exfalso; apply hm
          have : n = it * c.ws + r := by omega
          rw [this, Nat.mul_comm, Nat.mul_add_mod, Nat.mod_eq_of_lt hr]
      · intro s hsq j hj
        rw [h5 s hsq j hj]
        have hne : s * c.ws + r ≠ n := by
          intro h
          apply hm
          rw [← h, Nat.mul_comm, Nat.mul_add_mod, Nat.mod_eq_of_lt hr]
        by_cases hlt : s * c.ws + r < n
        · rw [if_pos hlt, if_pos (by omega)]
        · rw [if_neg hlt, if_neg (by omega)]

/-! ### list of blocks -/

theorem flatMap_range_split (f : Nat → List α) (m n : Nat) :
    (List.range (m + n)).flatMap f
      = (List.range m).flatMap f ++ (List.range n).flatMap (fun j => f (m + j)) := by
  induction n with
  | zero => simp
  | succ n ih =>
    rw [← Nat.add_assoc, List.range_succ, List.flatMap_append, ih, List.range_succ,
      List.flatMap_append]
    simp

theorem flatMap_range_mul (f : Nat → List α) (q w : Nat) :
    (List.range (q * w)).flatMap f
      = (List.range q).flatMap (fun i => (List.range w).flatMap (fun j => f (i * w + j))) := by
  induction q with
  | zero => simp
  | succ q ih =>
    rw [Nat.add_mul, Nat.one_mul, flatMap_range_split, ih, List.range_succ, List.flatMap_append]
    simp

theorem flatMap_range_if (f : Nat → List α) (m n : Nat) (h : m ≤ n) :
    (List.range n).flatMap (fun j => if m > j then f j else []) = (List.range m).flatMap f := by
  obtain ⟨k, rfl⟩ := Nat.exists_eq_add_of_le h
  rw [flatMap_range_split]
  have h1 : (List.range k).flatMap (fun j => if m > m + j then f (m + j) else []) = [] := by
    simp
  rw [h1, List.append_nil]
  exact List.flatMap_congr (fun a ha => by
    have : a < m := by simpa using ha
    simp [this])

theorem flatten_map_map_flatten (q w : Nat) (g : Nat → Nat → List α) :
    (((List.range q).map (fun i => (List.range w).map (g i))).map List.flatten).flatten
      = (List.range q).flatMap (fun i => (List.range w).flatMap (g i)) := by
  simp [List.flatMap, List.map_map, Function.comp_def]

/-- The block computed for `i`. -/
def block [Zero α] (c : Cfg) (val : Nat → List α) (nomp i : Nat) : List α :=
  (List.range (nomp * c.nvec)).map (cell c val nomp i)

theorem reorder_spec [Zero α] (c : Cfg) (val : Nat → List α) (nomp : Nat) (result : List α)
    (hws : 0 < c.ws) (hlen : result.length = c.ws * ((c.nodes / c.ws + 1) * (nomp * c.nvec)))
    (hres : ∀ r < c.ws, ∀ s ≤ c.nodes / c.ws, ∀ j < nomp * c.nvec,
      result[(r * (c.nodes / c.ws + 1) + s) * (nomp * c.nvec) + j]?
        = some (if s * c.ws + r < c.nodes then cell c val nomp (s * c.ws + r) j else 0)) :
    reorder c (nomp * c.nvec) result = .ok ((List.range c.nodes).flatMap (block c val nomp)) := by
  set B := nomp * c.nvec with hB
  set q := c.nodes / c.ws with hq
  have hfit : ∀ r < c.ws, ∀ s ≤ q, (r * (q + 1) + s) * B + B ≤ result.length := by
    intro r hr s hs
    rw [hlen, ← Nat.mul_assoc c.ws]
    have h1 : r * (q + 1) + s < c.ws * (q + 1) := block_lt hr (by omega)
    calc (r * (q + 1) + s) * B + B = (r * (q + 1) + s + 1) * B := by ring
      _ ≤ c.ws * (q + 1) * B := Nat.mul_le_mul_right _ h1
  have hslice : ∀ r < c.ws, ∀ s ≤ q, s * c.ws + r < c.nodes →
      slice result ((r * (q + 1) + s) * B) B = .ok (block c val nomp (s * c.ws + r)) := by
    intro r hr s hs hlt
    rw [slice, if_pos (hfit r hr s hs)]
    congr 1
    apply List.ext_getElem?
    intro j
    by_cases hj : j < B
    · rw [List.getElem?_take_of_lt hj, List.getElem?_drop, hres r hr s hs j hj, if_pos hlt]
      simp [block, ← hB, hj]
    · rw [List.getElem?_eq_none (by simp; omega), List.getElem?_eq_none (by simp [block, ← hB]; omega)]
  have hdm : c.ws * q + c.nodes % c.ws = c.nodes := Nat.div_add_mod c.nodes c.ws
  have hml := Nat.mod_lt c.nodes hws
  have hlt1 : ∀ i < q, ∀ j < c.ws, i * c.ws + j < c.nodes := by
    intro i hi j hj
    have := block_lt hi hj
    have h2 : c.ws * q = q * c.ws := Nat.mul_comm _ _
    omega
  have hp1 : (List.range q).mapM (fun i => (List.range c.ws).mapM
      fun j => slice result ((j * (q + 1) + i) * B) B)
      = .ok ((List.range q).map fun i => (List.range c.ws).map fun j => block c val nomp (i * c.ws + j)) := by
    apply mapM_ok
    intro i hi
    have hi : i < q := by simpa using hi
    apply mapM_ok
    intro j hj
    have hj : j < c.ws := by simpa using hj
    exact hslice j hj i (by omega) (hlt1 i hi j hj)
  have hp2 : (List.range c.ws).mapM (fun j =>
      if c.nodes % c.ws > j then slice result ((j * (q + 1) + q) * B) B else .ok [])
      = .ok ((List.range c.ws).map fun j =>
          if c.nodes % c.ws > j then block c val nomp (q * c.ws + j) else []) := by
    apply mapM_ok
    intro j hj
    have hj : j < c.ws := by simpa using hj
    split
    · rename_i h
      have h2 : c.ws * q = q * c.ws := Nat.mul_comm _ _
      exact hslice j hj q (le_refl _) (by omega)
    · rfl
  unfold reorder
  simp only [← hq]
  rw [hp1]
  simp only [bind, Except.bind]
  rw [hp2]
  simp only
  congr 1
  rw [flatten_map_map_flatten]
  have hnodes : c.nodes = q * c.ws + c.nodes % c.ws := by
    rw [Nat.mul_comm]; exact hdm.symm
  conv_rhs => rw [hnodes]
  rw [flatMap_range_split, flatMap_range_mul, ← flatMap_range_if _ _ _ hml.le]
  rfl

end Verif.Mpi
