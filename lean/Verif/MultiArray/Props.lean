import Verif.MultiArray.Lemmas
import Verif.Util.Lists

/-!
# C04 – C06, C71: multi-dimensional arrays
-/
namespace Verif.MultiArray
open Verif Verif.Index

/-- **C04** (fresh arrays). An array constructed from a shape and a value represents the constant map. -/
theorem c04_make (dims : List Nat) (v : α) (h : dims ≠ []) :
    Represents (MArr.make dims v) dims (fun _ => v) := by
  refine ⟨make_wf dims v h, rfl, ?_⟩
  intro idx hidx
  rw [at_eq_iff (make_wf dims v h) hidx]
  simp only [MArr.make, flatSize_eq, List.getElem?_replicate]
  rw [if_pos (rowMajor_lt hidx)]

/-- **C04** (refinement). After any sequence of legal operations – element writes, block writes,
entrywise arithmetic with other arrays, scalar maps – starting from an array that represents the map
`s`, no failure occurs and the array represents the map obtained by applying the abstract meaning of
the operations in order; in particular writing one element leaves all other elements alone. -/
theorem c04_operations_refine_map (dims : List Nat) (ops : List (Op α))
    (hl : ∀ o ∈ ops, o.Legal dims) (m : MArr α) (s : List Nat → α) (hr : Represents m dims s) :
    ∃ m', runOps m ops = .ok m' ∧ Represents m' dims (ops.foldl (Op.meaning dims) s) := by
  induction ops generalizing m s with
  | nil => exact ⟨m, rfl, hr⟩
  | cons o os ih =>
    obtain ⟨m1, h1, hr1⟩ := exec_refines hr o (hl o (by simp))
    obtain ⟨m2, h2, hr2⟩ := ih (fun o ho => hl o (by simp [ho])) m1 _ hr1
    refine ⟨m2, ?_, hr2⟩
    unfold runOps at h2 ⊢
    rw [List.foldlM_cons, h1]
    exact h2

/-- **C04** (out of range). Reading or writing with an index of the right rank that is out of range
in any axis fails the assertion, and does not read or write anything. -/
theorem c04_out_of_range (m : MArr α) (idx : List Nat) (v : α) (hrank : idx.length = m.len.length)
    (h : ¬ InRange idx m.len) :
    m.at idx = .error .assertion ∧ m.setAt idx v = .error .assertion := by
  have hb : checkBounds idx m.len = false := by
    rw [Bool.eq_false_iff, ne_eq, checkBounds_iff hrank]; exact h
  simp [MArr.at, MArr.setAt, hb]

/-- **C04** (shape mismatch). Entrywise operations between arrays of different shape fail the assertion. -/
theorem c04_shape_mismatch (m rhs : MArr α) (op : α → α → α) (h : m.len ≠ rhs.len) :
    m.zipAssign op rhs = .error .assertion := by simp [MArr.zipAssign, h]

example : ∃ m', runOps (MArr.make [2, 3] (0 : Int))
      [.write [1, 0] 7, .writeBlock [0, 1] [4, 5], .map (· * 2)] = .ok m' ∧
    m'.elems = [0, 8, 10, 14, 0, 0] := ⟨_, rfl, by decide⟩

/-- **C05** (assignment). Copy assignment makes the left array read exactly like the right one. -/
theorem c05_assign (lhs rhs : MArr α) (dims : List Nat) (s : List Nat → α)
    (h : Represents rhs dims s) : Represents (lhs.assign rhs) dims s := h

/-- **C05** (swap, element access). After a swap every element read through `at` is the element of
the array it came from, for arrays of any shapes. -/
theorem c05_swap_elements_partial (a b : MArr α) (idx : List Nat) :
    (a.swap b).1.at idx = b.at idx ∧ (a.swap b).2.at idx = a.at idx := ⟨rfl, rfl⟩

/-- **C05** (swap, same shape). For arrays of the same shape a swap exchanges the arrays completely. -/
theorem c05_swap_same_shape_partial (a b : MArr α) (ha : a.WF) (hb : b.WF) (h : a.len = b.len) :
    a.swap b = (b, a) := by
  have hc : a.cum = b.cum := by rw [ha.2.2, hb.2.2, h]
  cases a; cases b
  simp_all [MArr.swap]

/-- **C05** is false of the code for slices: after swapping two (well-formed) arrays of different
shapes, the slice accessor `get_values` returns wrong elements, since the swap leaves the cumulative
lengths behind. -/
theorem c05_swap_slices_refuted :
    ¬ ∀ (a b : MArr Int) (nfreq pos vecsize sample : Nat) (idx : List Nat), a.WF → b.WF →
      (a.swap b).1.getValues nfreq pos vecsize sample idx
        = b.getValues nfreq pos vecsize sample idx := by
  intro h
  have := h ⟨[4, 1], [1, 1], [0, 1, 2, 3]⟩ ⟨[2, 2], [2, 1], [10, 11, 12, 13]⟩ 1 0 2 2 [0, 0]
    (by simp [MArr.WF, cumulLength]) (by simp [MArr.WF, cumulLength])
  revert this; decide

/-- **C71** is false of the code: the constructor from a shape and data accepts data of any size. -/
theorem c71_constructor_size_check_refuted :
    ¬ ∀ (dims : List Nat) (els : List Int), els.length ≠ dims.prod →
      MArr.ofContainer dims els = .error .exception := by
  intro h
  have := h [2, 2] [1] (by decide)
  simp [MArr.ofContainer] at this

/-- **C71**, what the code does: no data are ever refused. -/
theorem c71_constructor_accepts_everything (dims : List Nat) (els : List α) :
    ∃ m, MArr.ofContainer dims els = .ok m := ⟨_, by simp [MArr.ofContainer]; rfl⟩

/-- **C71**, part that holds: with data of the right size the array represents the row-major map. -/
theorem c71_constructor_partial (dims : List Nat) (els : List α) (hd : dims ≠ [])
    (hs : els.length = dims.prod) :
    ∃ m, MArr.ofContainer dims els = .ok m ∧ m.WF ∧
      ∀ idx, InRange idx dims → ∃ x, els[rowMajor idx dims]? = some x ∧ m.at idx = .ok x := by
  refine ⟨⟨dims, cumulLength dims, els⟩, by simp [MArr.ofContainer], ⟨hd, hs, rfl⟩, ?_⟩
  intro idx hidx
  exact at_of_inRange (m := ⟨dims, cumulLength dims, els⟩) ⟨hd, hs, rfl⟩ hidx

/-! ## C06: block access -/

theorem segment_getElem? {els seg : List α} {start n : Nat} (h : segment els start n = .ok seg) :
    seg.length = n ∧ ∀ v < n, seg[v]? = els[start + v]? := by
  unfold segment at h
  split at h
  · cases h
    refine ⟨by simp; omega, ?_⟩
    intro v hv
    rw [List.getElem?_take_of_lt hv, List.getElem?_drop]
  · cases h

/-- **C06** (block read). Reading a block of `n` entries at an in-range index yields, entry by entry,
the elements whose row-major positions follow that index – precisely what element reads return. -/
theorem c06_block_read (m : MArr α) (hw : m.WF) (idx : List Nat) (n : Nat) (hidx : InRange idx m.len)
    (hfit : rowMajor idx m.len + n ≤ m.len.prod) :
    ∃ blk, m.atVectorized n idx = .ok blk ∧ blk.length = n ∧
      ∀ j v, InRange j m.len → rowMajor j m.len = rowMajor idx m.len + v → v < n →
        ∃ x, blk[v]? = some x ∧ m.at j = .ok x := by
  have hs : m.atVectorized n idx = .ok ((m.elems.drop (rowMajor idx m.len)).take n) := by
    simp [MArr.atVectorized, checkBounds_of_inRange hidx, flatIndex_eq hidx.length_eq, segment,
      hw.2.1, hfit]
  refine ⟨_, hs, ?_, ?_⟩
  · simp [hw.2.1]; omega
  · intro j v hj hjv hv
    obtain ⟨x, h1, h2⟩ := at_of_inRange hw hj
    refine ⟨x, ?_, h2⟩
    rw [List.getElem?_take_of_lt hv, List.getElem?_drop, ← hjv, h1]

/-- **C06** (blocks that do not fit are refused), both for reading and for writing. -/
theorem c06_block_too_long (m : MArr α) (hw : m.WF) (idx : List Nat) (n : Nat)
    (hidx : InRange idx m.len) (hfit : ¬ rowMajor idx m.len + n ≤ m.len.prod) :
    m.atVectorized n idx = .error .assertion ∧
    ∀ blk : List α, blk.length = n → m.setVectorized blk idx = .error .assertion := by
  constructor
  · simp [MArr.atVectorized, checkBounds_of_inRange hidx, flatIndex_eq hidx.length_eq, segment,
      hw.2.1, hfit]
  · intro blk hb
    simp only [MArr.setVectorized, checkBounds_of_inRange hidx, flatIndex_eq hidx.length_eq, if_true,
      hw.2.1, hb, hfit, if_false]

/-- Adding the offsets `os` to the entries of a multi-index starting at axis `pos`. -/
def addAt : List Nat → Nat → List Nat → List Nat
  | i :: is, 0, o :: os => (i + o) :: addAt is 0 os
  | is, 0, [] => is
  | i :: is, p + 1, os => i :: addAt is p os
  | [], _, _ => []

theorem addAt_length (idx : List Nat) (pos : Nat) (os : List Nat) :
    (addAt idx pos os).length = idx.length := by
  induction idx generalizing pos os with
  | nil => cases pos <;> cases os <;> rfl
  | cons i is ih =>
    cases pos with
    | zero => cases os with
      | nil => rfl
      | cons o os => simp [addAt, ih]
    | succ p => simp [addAt, ih]

theorem addAt_nil (idx : List Nat) (pos : Nat) : addAt idx pos [] = idx := by
  induction idx generalizing pos with
  | nil => cases pos <;> rfl
  | cons i is ih => cases pos <;> simp [addAt, ih]

theorem rowMajor_addAt (idx ds : List Nat) (pos : Nat) (os : List Nat) (h : idx.length = ds.length)
    (hp : pos + os.length ≤ ds.length) :
    rowMajor (addAt idx pos os) ds
      = rowMajor idx ds + (List.zipWith (· * ·) os ((cumulLength ds).drop pos)).sum := by
  induction idx generalizing ds pos os with
  | nil =>
    cases ds with
    | nil => simp at hp; simp [hp, addAt_nil]
    | cons => simp at h
  | cons i is ih =>
    cases ds with
    | nil => simp at h
    | cons d ds =>
      simp only [List.length_cons, Nat.add_right_cancel_iff] at h
      rw [cumulLength_cons']
      cases pos with
      | zero =>
        cases os with
        | nil => simp [addAt]
        | cons o os =>
          simp only [addAt, rowMajor, List.drop_zero, List.zipWith_cons_cons, List.sum_cons]
          have hp' : 0 + os.length ≤ ds.length := by simpa using hp
          have := ih ds 0 os h hp'
          rw [this]; simp only [List.drop_zero]; ring
      | succ p =>
        simp only [addAt, rowMajor, List.drop_succ_cons]
        have hp' : p + os.length ≤ ds.length := by simp at hp; omega
        have := ih ds p os h hp'
        rw [this]; ring

theorem sampleOffsets_spec (cum : List Nat) (sample pos n : Nat) (hp : pos + n ≤ cum.length) :
    (sampleOffsets cum sample pos n).length = (List.replicate n sample).prod ∧
    ∀ o, InRange o (List.replicate n sample) →
      (sampleOffsets cum sample pos n)[rowMajor o (List.replicate n sample)]?
        = some (List.zipWith (· * ·) o (cum.drop pos)).sum := by
  induction n generalizing pos with
  | zero =>
    refine ⟨rfl, ?_⟩
    intro o ho
    simp [InRange] at ho; subst ho
    rfl
  | succ n ih =>
    obtain ⟨ihl, ihg⟩ := ih (pos + 1) (by omega)
    have hlen : ∀ i < sample, ((sampleOffsets cum sample (pos + 1) n).map
        (cum.getD pos 0 * i + ·)).length = (List.replicate n sample).prod := by
      intro i _; simp [ihl]
    refine ⟨?_, ?_⟩
    · rw [sampleOffsets, length_flatMap_range _ _ _ hlen]
      simp [List.replicate_succ]
    · intro o ho
      cases o with
      | nil => simp [InRange, List.replicate_succ] at ho
      | cons a o =>
        rw [List.replicate_succ] at ho ⊢
        obtain ⟨ha, ho'⟩ := List.forall₂_cons.1 ho
        rw [rowMajor, sampleOffsets, getElem?_flatMap_range _ _ _ _ _ hlen ha (rowMajor_lt ho'),
          List.getElem?_map, ihg o ho']
        have hpos : pos < cum.length := by omega
        rw [List.drop_eq_getElem_cons hpos, List.zipWith_cons_cons, List.sum_cons]
        simp only [List.getD, List.getElem?_eq_getElem hpos, Option.getD_some, Option.map_some, Nat.mul_comm]

theorem getFlatIndexIni_eq (m : MArr α) (n : Nat) (idx : List Nat) (hi : n < idx.length)
    (hc : n < m.cum.length) :
    m.getFlatIndexIni n idx
      = .ok (List.zipWith (· * ·) (idx.take (n + 1)) (m.cum.take (n + 1))).sum := by
  unfold MArr.getFlatIndexIni
  have h := foldlM_ok (f := iniStep idx m.cum) (g := fun acc i => acc + idx.getD i 0 * m.cum.getD i 0)
      (l := List.range (n + 1)) 0 (by
    intro b x hx
    have hx : x < n + 1 := by simpa using hx
    have h1 : x < idx.length := by omega
    have h2 : x < m.cum.length := by omega
    simp [iniStep, List.getD, h1, h2])
  rw [h]
  congr 1
  clear h
  generalize m.cum = cum at *
  have key : ∀ k, k ≤ idx.length → k ≤ cum.length →
      (List.range k).foldl (fun acc i => acc + idx.getD i 0 * cum.getD i 0) 0
        = (List.zipWith (· * ·) (idx.take k) (cum.take k)).sum := by
    intro k
    induction k with
    | zero => intros; simp
    | succ k ih =>
      intro h1 h2
      have h1' : k < idx.length := by omega
      have h2' : k < cum.length := by omega
      rw [List.range_succ, List.foldl_append, ih (by omega) (by omega),
        List.take_succ_eq_append_getElem h1', List.take_succ_eq_append_getElem h2',
        List.zipWith_append (by simp; omega)]
      simp [List.getD, h1', h2']
  exact key (n + 1) (by omega) (by omega)

theorem zipWith_take_sum (idx cum : List Nat) (n : Nat) (h : ∀ i ∈ idx.drop n, i = 0) :
    (List.zipWith (· * ·) (idx.take n) (cum.take n)).sum = (List.zipWith (· * ·) idx cum).sum := by
  induction n generalizing idx cum with
  | zero =>
    simp only [List.drop_zero] at h
    have : ∀ (l c : List Nat), (∀ i ∈ l, i = 0) → (List.zipWith (· * ·) l c).sum = 0 := by
      intro l
      induction l with
      | nil => intros; simp
      | cons x xs ih =>
        intro c hx
        cases c with
        | nil => simp
        | cons c cs => simp [hx x (by simp), ih cs (fun i hi => hx i (by simp [hi]))]
    simp [this idx cum h]
  | succ n ih =>
    cases idx with
    | nil => simp
    | cons i is =>
      cases cum with
      | nil => simp
      | cons c cs =>
        simp only [List.take_succ_cons, List.zipWith_cons_cons, List.sum_cons]
        rw [ih is cs (by simpa using h)]

theorem cumulLength_drop (ds : List Nat) (p : Nat) (hp : p < ds.length) :
    (cumulLength ds)[p]? = some (ds.drop (p + 1)).prod := by
  induction ds generalizing p with
  | nil => simp at hp
  | cons d ds ih =>
    rw [cumulLength_cons']
    cases p with
    | zero => simp
    | succ p =>
      simp only [List.length_cons, Nat.add_lt_add_iff_right] at hp
      rw [List.getElem?_cons_succ, ih p hp]; simp

/-- **C06** (sampling a neighbourhood). `get_values` on a well-formed array samples `sample` points in
each of the `nfreq` frequency axes starting at axis `pos`, and `vecsize` consecutive entries of the
axis following them.  Under the conditions the code relies on – all sampled points in range, one
internal index (extents behind the vectorised axis multiply to one), trailing indices zero – the
column numbered by the offsets `o` (first axis slowest) holds at position `v` exactly the element read
at the multi-index shifted by `o` in the frequency axes and by `v` in the vectorised axis. -/
theorem c06_sample_neighbourhood (m : MArr α) (hw : m.WF) (nfreq pos vecsize sample : Nat)
    (idx : List Nat) (h1 : 1 ≤ nfreq) (h3 : nfreq ≤ 3) (hvs : 0 < vecsize) (hss : 0 < sample)
    (hpos : pos + nfreq < m.len.length)
    (hinner : (m.len.drop (pos + nfreq + 1)).prod = 1)
    (htrail : ∀ i ∈ idx.drop (pos + nfreq + 1), i = 0)
    (hrange : ∀ o v, InRange o (List.replicate nfreq sample) → v < vecsize →
      InRange (addAt idx pos (o ++ [v])) m.len) :
    ∃ cols, m.getValues nfreq pos vecsize sample idx = .ok cols ∧
      cols.length = (List.replicate nfreq sample).prod ∧
      ∀ o v, InRange o (List.replicate nfreq sample) → v < vecsize →
        ∃ col x, cols[rowMajor o (List.replicate nfreq sample)]? = some col ∧ col.length = vecsize ∧
          col[v]? = some x ∧ m.at (addAt idx pos (o ++ [v])) = .ok x := by
  have hz : InRange (List.replicate nfreq 0) (List.replicate nfreq sample) := by
    clear hrange h1 h3 hpos hinner htrail
    induction nfreq with
    | zero => exact List.Forall₂.nil
    | succ n ih => exact List.Forall₂.cons hss ih
  have hzero : ∀ (l : List Nat) p n, addAt l p (List.replicate n 0) = l := by
    intro l
    induction l with
    | nil => intro p n; cases p <;> cases n <;> rfl
    | cons i is ih =>
      intro p n
      cases p with
      | zero => cases n with
        | zero => rfl
        | succ n => simp [List.replicate_succ, addAt, ih]
      | succ p => simp [addAt, ih]
  have hidx : InRange idx m.len := by
    have := hrange _ 0 hz hvs
    rw [← List.replicate_succ', hzero] at this
    exact this
  have hcl : m.cum.length = m.len.length := by rw [hw.2.2, cumulLength_length]
  have hil := hidx.length_eq
  have hini : m.getFlatIndexIni (pos + nfreq) idx = .ok (rowMajor idx m.len) := by
    rw [getFlatIndexIni_eq m _ idx (by omega) (by omega), zipWith_take_sum _ _ _ htrail,
      rowMajor_eq_sum _ _ hil, hw.2.2]
  have hoff := sampleOffsets_spec m.cum sample pos nfreq (by omega)
  -- position of a shifted index
  have hposn : ∀ o v, InRange o (List.replicate nfreq sample) →
      rowMajor (addAt idx pos (o ++ [v])) m.len
        = rowMajor idx m.len + (List.zipWith (· * ·) o (m.cum.drop pos)).sum + v := by
    intro o v ho
    have hol : o.length = nfreq := by simpa using ho.length_eq
    rw [rowMajor_addAt _ _ _ _ hil (by simp; omega), ← hw.2.2]
    have hsplit : m.cum.drop pos = (m.cum.drop pos).take nfreq ++ (m.cum.drop pos).drop nfreq :=
      (List.take_append_drop _ _).symm
    have h1 : List.zipWith (· * ·) (o ++ [v]) (m.cum.drop pos)
        = List.zipWith (· * ·) o ((m.cum.drop pos).take nfreq)
          ++ List.zipWith (· * ·) [v] ((m.cum.drop pos).drop nfreq) := by
      conv_lhs => rw [hsplit]
      rw [List.zipWith_append (by simp [hol]; omega)]
    have h2 : List.zipWith (· * ·) o (m.cum.drop pos)
        = List.zipWith (· * ·) o ((m.cum.drop pos).take nfreq) := by
      conv_lhs => rw [hsplit, ← List.append_nil o]
      rw [List.zipWith_append (by simp [hol]; omega)]
      simp
    have h3 : List.zipWith (· * ·) [v] ((m.cum.drop pos).drop nfreq) = [v] := by
      rw [List.drop_drop, List.drop_eq_getElem_cons (by omega)]
      have hc := cumulLength_drop m.len (pos + nfreq) hpos
      rw [← hw.2.2, List.getElem?_eq_getElem (by omega), hinner] at hc
      simp [Option.some.inj hc]
    rw [h1, h3, ← h2]; simp; ring
  -- every column can be read
  have hcol : ∀ a ∈ sampleOffsets m.cum sample pos nfreq,
      m.atVectorizedFlat vecsize (rowMajor idx m.len + a)
        = .ok ((m.elems.drop (rowMajor idx m.len + a)).take vecsize) := by
    intro a ha
    obtain ⟨k, hk, rfl⟩ := List.getElem_of_mem ha
    rw [hoff.1] at hk
    obtain ⟨ho, hro⟩ := multLoop_spec k _ hk
    have hg := hoff.2 _ ho
    rw [hro, List.getElem?_eq_getElem (by rw [hoff.1]; exact hk)] at hg
    have hlast := rowMajor_lt (hrange _ (vecsize - 1) ho (by omega))
    rw [hposn _ _ ho, ← Option.some.inj hg] at hlast
    have hfit : rowMajor idx m.len + (sampleOffsets m.cum sample pos nfreq)[k] + vecsize
        ≤ m.elems.length := by rw [hw.2.1]; omega
    simp [MArr.atVectorizedFlat, segment, hfit]
  refine ⟨(sampleOffsets m.cum sample pos nfreq).map
    fun a => (m.elems.drop (rowMajor idx m.len + a)).take vecsize, ?_, ?_, ?_⟩
  · unfold MArr.getValues
    rw [if_neg (by simp [checkBounds_of_inRange hidx]), hini]
    simp only [bind, Except.bind]
    rw [if_neg (by omega)]
    exact mapM_ok hcol
  · simp [hoff.1]
  · intro o v ho hv
    obtain ⟨x, hx1, hx2⟩ := at_of_inRange hw (hrange o v ho hv)
    refine ⟨_, x, by rw [List.getElem?_map, hoff.2 o ho]; rfl, ?_, ?_, hx2⟩
    · have hlast := rowMajor_lt (hrange o (vecsize - 1) ho (by omega))
      rw [hposn _ _ ho] at hlast
      simp [hw.2.1]; omega
    · rw [List.getElem?_take_of_lt hv, List.getElem?_drop, ← hposn o v ho, hx1]

example : (⟨[1, 3, 4], cumulLength [1, 3, 4], (List.range 12)⟩ : MArr Nat).getValues 1 1 2 2 [0, 1, 1]
    = .ok [[5, 6], [9, 10]] := by decide

/-- **C06**, finding: the internal index is ignored by `get_values` (its entry lies behind the summed
range), so with more than one internal index the slice is not the one at the requested index. -/
theorem c06_internal_index_ignored_refuted :
    ¬ ∀ (m : MArr Nat) (nfreq pos vecsize sample : Nat) (idx : List Nat) (cols : List (List Nat)),
      m.WF → m.getValues nfreq pos vecsize sample idx = .ok cols → 0 < vecsize →
      ∃ col x, cols[0]? = some col ∧ col[0]? = some x ∧ m.at idx = .ok x := by
  intro h
  obtain ⟨col, x, h1, h2, h3⟩ := h ⟨[1, 2, 2, 2], cumulLength [1, 2, 2, 2], List.range 8⟩ 1 1 2 1
    [0, 0, 0, 1] [[0, 1]] (by refine ⟨by simp, by decide, rfl⟩) (by decide) (by decide)
  simp at h1; subst h1
  simp at h2; subst h2
  revert h3; decide

/-! ## BlockView -/

theorem blockFlatLoop_eq (acc : Nat) (ss ds is : List Nat) (h1 : ss.length = ds.length)
    (h2 : is.length = ds.length) :
    blockFlatLoop acc ss ds is = acc * ds.prod + rowMajor (List.zipWith (· + ·) ss is) ds := by
  induction ss generalizing acc ds is with
  | nil =>
    cases ds <;> cases is <;> simp_all [blockFlatLoop, rowMajor]
  | cons s ss ih =>
    match ds, is, h1, h2 with
    | d :: ds, i :: is, h1, h2 =>
      simp only [List.length_cons, Nat.add_right_cancel_iff] at h1 h2
      simp only [blockFlatLoop, ih _ _ _ h1 h2, List.zipWith_cons_cons, rowMajor, List.prod_cons]
      ring

theorem blockFits_inRange {start length dims idx : List Nat} (h1 : start.length = dims.length)
    (h2 : length.length = dims.length) (hf : blockFits start length dims = true)
    (hi : InRange idx length) : InRange (List.zipWith (· + ·) start idx) dims := by
  induction start generalizing length dims idx with
  | nil =>
    cases dims with
    | nil => simp [InRange]
    | cons => simp at h1
  | cons s ss ih =>
    match length, dims, idx, h1, h2, hi with
    | l :: ls, d :: ds, i :: is, h1, h2, hi =>
      simp only [List.length_cons, Nat.add_right_cancel_iff] at h1 h2
      obtain ⟨hil, his⟩ := List.forall₂_cons.1 hi
      unfold blockFits at hf
      split at hf
      · cases hf
      · exact List.Forall₂.cons (show s + i < d by omega) (ih h1 h2 hf his)
    | [], d :: ds, _, _, h2, _ => simp at h2

/-- **C06** (views on sub-blocks). A view on a block that fits into the array reads, at every index
inside the block, the element of the array at the index shifted by the start of the block. -/
theorem c06_block_view (m : MArr α) (hw : m.WF) (start length idx : List Nat)
    (h1 : start.length = m.len.length) (h2 : length.length = m.len.length)
    (hf : blockFits start length m.len = true) (hi : InRange idx length) :
    m.blockAt start length idx = m.at (List.zipWith (· + ·) start idx) := by
  have hR := blockFits_inRange h1 h2 hf hi
  have hil := hi.length_eq
  have hfl : blockFlatIndex start m.len idx = rowMajor (List.zipWith (· + ·) start idx) m.len := by
    match start, m.len, idx, h1, hil.trans h2 with
    | [], [], [], _, _ => rfl
    | s :: ss, d :: ds, i :: is, h1, h2 =>
      simp only [List.length_cons, Nat.add_right_cancel_iff] at h1 h2
      simp [blockFlatIndex, blockFlatLoop_eq _ _ _ _ h1 h2, rowMajor]
  simp [MArr.blockAt, hf, checkBounds_of_inRange hi, MArr.at, checkBounds_of_inRange hR, hfl,
    flatIndex_eq hR.length_eq]

/-- **C06** (copying a block). Flattening a non-empty block view lists its elements in row-major order
of the block. -/
theorem c06_block_vec (m : MArr α) (hw : m.WF) (start length : List Nat)
    (h1 : start.length = m.len.length) (h2 : length.length = m.len.length)
    (hf : blockFits start length m.len = true) :
    ∃ v, m.blockVec start length = .ok v ∧ v.length = numElems length ∧
      ∀ idx, InRange idx length →
        ∃ x, v[rowMajor idx length]? = some x ∧ m.at (List.zipWith (· + ·) start idx) = .ok x := by
  have hne : length ≠ [] := by
    intro h; rw [h] at h2; have := hw.1; cases hm : m.len <;> simp_all
  obtain ⟨d, ds, rfl⟩ := List.exists_cons_of_ne_nil hne
  have hr : 1 ≤ (d :: ds).length := by simp
  have hsize : getFlatSize (d :: ds) = some (d :: ds).prod := by simp [getFlatSize, foldl_mul_eq]
  have hget : ∀ i < (d :: ds).prod, ∃ idx x, getMultIndex i (d :: ds) = some idx ∧
      InRange idx (d :: ds) ∧ rowMajor idx (d :: ds) = i ∧
      m.at (List.zipWith (· + ·) start idx) = .ok x ∧
      m.blockAt start (d :: ds) idx = .ok x := by
    intro i hi
    obtain ⟨idx, g1, g2, g3⟩ := getMultIndex_spec i (d :: ds) hr hi
    obtain ⟨x, -, hx⟩ := at_of_inRange hw (blockFits_inRange h1 h2 hf g2)
    exact ⟨idx, x, g1, g2, g3, hx, by rw [c06_block_view m hw start _ idx h1 h2 hf g2, hx]⟩
  -- choose the values
  let g : Nat → Option α := fun i =>
    match getMultIndex i (d :: ds) with
    | some idx => (m.blockAt start (d :: ds) idx).toOption
    | none => none
  have hgs : ∀ i < (d :: ds).prod, ∃ x, g i = some x := by
    intro i hi
    obtain ⟨idx, x, g1, -, -, -, g5⟩ := hget i hi
    exact ⟨x, by simp [g, g1, g5, Except.toOption]⟩
  rcases Nat.eq_zero_or_pos (d :: ds).prod with h0 | hpos
  · refine ⟨[], ?_, ?_, ?_⟩
    · simp [MArr.blockVec, hsize, h0]; rfl
    · simp [numElems, h0]
    · intro idx hidx
      have := rowMajor_lt hidx; omega
  · obtain ⟨x0, -⟩ := hgs 0 hpos
    let gg : Nat → α := fun i => (g i).getD x0
    have hmap : ∀ i ∈ List.range (d :: ds).prod,
        (match getMultIndex i (d :: ds) with
          | none => (.error .undefined : Res α)
          | some idx => m.blockAt start (d :: ds) idx) = .ok (gg i) := by
      intro i hi
      have hi : i < (d :: ds).prod := by simpa using hi
      obtain ⟨idx, x, g1, -, -, -, g5⟩ := hget i hi
      simp [gg, g, g1, g5, Except.toOption]
    refine ⟨(List.range (d :: ds).prod).map gg, ?_, by simp [numElems], ?_⟩
    · unfold MArr.blockVec
      rw [hsize]
      exact mapM_ok hmap
    · intro idx hidx
      have hlt := rowMajor_lt hidx
      obtain ⟨idx', x, g1, g2, g3, g4, g5⟩ := hget _ hlt
      have : idx' = idx := rowMajor_inj g2 hidx g3
      subst this
      refine ⟨x, ?_, g4⟩
      rw [List.getElem?_map, List.getElem?_range hlt]
      simp [gg, g, g1, g5, Except.toOption]

example : (⟨[3, 4], cumulLength [3, 4], (List.range 12)⟩ : MArr Nat).blockVec [1, 1] [2, 2]
    = .ok [5, 6, 9, 10] := by decide

end Verif.MultiArray
