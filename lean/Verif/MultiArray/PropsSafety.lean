import Verif.MultiArray.Props
import Mathlib.Data.List.Forall2

/-
C04, C06: what the accessors do outside of the legal uses, and ranges given by two corners.
-/
namespace Verif.MultiArray
open Verif Verif.Index

/-- A block with corner `start` and extents `length` lies inside of the shape. -/
def Fits (start length dims : List Nat) : Prop :=
  start.length = dims.length ∧ length.length = dims.length ∧
    ∀ i, i < dims.length → start.getD i 0 + length.getD i 0 ≤ dims.getD i 0

theorem blockFits_iff : ∀ {start length dims : List Nat}, start.length = dims.length → length.length = dims.length →
    (blockFits start length dims = true ↔ Fits start length dims) := by
  intro start
  induction start with
  | nil =>
    intro length dims h1 h2
    cases dims with
    | nil => simp [blockFits, Fits, h2]
    | cons => simp at h1
  | cons s ss ih =>
    intro length dims h1 h2
    match length, dims, h1, h2 with
    | [], [], h1, _ => simp at h1
    | l :: ls, d :: ds, h1, h2 =>
      simp only [List.length_cons, Nat.add_right_cancel_iff] at h1 h2
      have := ih h1 h2
      simp only [blockFits]
      split_ifs with h
      · simp only [Bool.false_eq_true, false_iff]
        rintro ⟨-, -, h3⟩
        have := h3 0 (by simp)
        simp at this
        omega
      · rw [this]
        constructor
        · rintro ⟨-, -, h3⟩
          refine ⟨by simpa using h1, by simpa using h2, fun i hi => ?_⟩
          cases i with
          | zero => simp; omega
          | succ i => simpa using h3 i (by simpa using hi)
        · rintro ⟨-, -, h3⟩
          exact ⟨h1, h2, fun i hi => by simpa using h3 (i + 1) (by simpa using hi)⟩

/-- **C06** (views of blocks). A view is refused exactly if its block does not lie inside of the array; a view that
is not refused refuses every index outside of its extents. -/
theorem c06_block_view_refuses (m : MArr α) (hw : m.WF) (start length idx : List Nat)
    (h1 : start.length = m.len.length) (h2 : length.length = m.len.length) (h3 : idx.length = m.len.length) :
    m.blockAt start length idx = .error .assertion ↔ ¬ Fits start length m.len ∨ ¬ InRange idx length := by
  by_cases hf : blockFits start length m.len = true
  · have hF := (blockFits_iff h1 h2).mp hf
    by_cases hi : InRange idx length
    · constructor
      · intro h
        exfalso
        have hR := blockFits_inRange h1 h2 hf hi
        obtain ⟨x, -, hx⟩ := at_of_inRange hw hR
        rw [c06_block_view m hw start length idx h1 h2 hf hi, hx] at h
        cases h
      · rintro (h | h)
        · exact absurd hF h
        · exact absurd hi h
    · have hcb : ¬ checkBounds idx length = true := fun h => hi ((checkBounds_iff (by omega)).mp h)
      simp [MArr.blockAt, hf, hcb, hi]
  · have hF : ¬ Fits start length m.len := fun h => hf ((blockFits_iff h1 h2).mpr h)
    simp [MArr.blockAt, hf, hF]

/-- **C06** (vectorised accessors). An index outside of the array is refused by an assertion, whatever the length of
the block. -/
theorem c06_block_out_of_range (m : MArr α) (idx : List Nat) (n : Nat) (blk : List α)
    (hrank : idx.length = m.len.length) (h : ¬ InRange idx m.len) :
    m.atVectorized n idx = .error .assertion ∧ m.setVectorized blk idx = .error .assertion ∧
      ∀ nfreq pos vecsize sample, m.getValues nfreq pos vecsize sample idx = .error .assertion := by
  have hb : checkBounds idx m.len = false := by
    rw [Bool.eq_false_iff, ne_eq, checkBounds_iff hrank]; exact h
  refine ⟨by simp [MArr.atVectorized, hb], by simp [MArr.setVectorized, hb], fun a b c d => ?_⟩
  simp [MArr.getValues, hb]

/-- **C04** (no access outside of the buffer). Reading or writing one element or a block through an array in any state —
also one whose buffer does not have the size of its shape — never has undefined behaviour: it succeeds or an
assertion stops the program, and a write keeps shape and size of the buffer. -/
theorem c04_never_undefined (m : MArr α) (idx : List Nat) (n k : Nat) (v : α) (blk : List α) :
    (m.at idx = .error .assertion ∨ ∃ x, m.at idx = .ok x) ∧
    (m.flatAt k = .error .assertion ∨ ∃ x, m.flatAt k = .ok x) ∧
    (m.setAt idx v = .error .assertion ∨ ∃ m', m.setAt idx v = .ok m' ∧ m'.len = m.len ∧
      m'.elems.length = m.elems.length) ∧
    (m.atVectorized n idx = .error .assertion ∨ ∃ b, m.atVectorized n idx = .ok b ∧ b.length = n) ∧
    (m.atVectorizedFlat n k = .error .assertion ∨ ∃ b, m.atVectorizedFlat n k = .ok b ∧ b.length = n) ∧
    (m.setVectorized blk idx = .error .assertion ∨ ∃ m', m.setVectorized blk idx = .ok m' ∧ m'.len = m.len ∧
      m'.elems.length = m.elems.length) := by
  have fa : ∀ k, m.flatAt k = .error .assertion ∨ ∃ x, m.flatAt k = .ok x := by
    intro k
    unfold MArr.flatAt
    cases m.elems[k]? with
    | none => exact Or.inl rfl
    | some x => exact Or.inr ⟨x, rfl⟩
  have sg : ∀ k, segment m.elems k n = .error .assertion ∨ ∃ b, segment m.elems k n = .ok b ∧ b.length = n := by
    intro k
    unfold segment
    split_ifs with h
    · exact Or.inr ⟨_, rfl, by simp; omega⟩
    · exact Or.inl rfl
  refine ⟨?_, fa k, ?_, ?_, ?_, ?_⟩
  · unfold MArr.at; split_ifs
    · exact fa _
    · exact Or.inl rfl
  · unfold MArr.setAt; split_ifs
    · exact Or.inr ⟨_, rfl, rfl, by simp⟩
    · exact Or.inl rfl
    · exact Or.inl rfl
  · unfold MArr.atVectorized; split_ifs
    · exact sg _
    · exact Or.inl rfl
  · unfold MArr.atVectorizedFlat; split_ifs
    · exact sg _
    · exact Or.inl rfl
  · unfold MArr.setVectorized; split_ifs with h1
    · dsimp only
      split_ifs with h2
      · exact Or.inr ⟨_, rfl, rfl, by simp; omega⟩
      · exact Or.inl rfl
    · exact Or.inl rfl

/-- **C06** (number of frequency arguments). Sampling is only offered for one to three frequency arguments. -/
theorem c06_sample_dimensions (m : MArr α) (nfreq pos vecsize sample : Nat) (idx : List Nat)
    (hr : pos + nfreq < idx.length) (hc : pos + nfreq < m.cum.length) (h : nfreq = 0 ∨ 3 < nfreq) :
    m.getValues nfreq pos vecsize sample idx = .error .assertion := by
  unfold MArr.getValues
  by_cases hb : checkBounds idx m.len = true
  · have : ∃ k, m.getFlatIndexIni (pos + nfreq) idx = .ok k := by
      unfold MArr.getFlatIndexIni
      have key : ∀ (l : List Nat), (∀ i ∈ l, i < pos + nfreq + 1) → ∀ acc, ∃ k, l.foldlM (iniStep idx m.cum) acc = .ok k := by
        intro l
        induction l with
        | nil => intro _ acc; exact ⟨acc, rfl⟩
        | cons i l ih =>
          intro hl acc
          have hi := hl i (by simp)
          rw [List.foldlM_cons]
          have : iniStep idx m.cum acc i = .ok (acc + idx[i] * m.cum[i]) := by
            simp [iniStep, List.getElem?_eq_getElem (show i < idx.length by omega),
              List.getElem?_eq_getElem (show i < m.cum.length by omega)]
          rw [this]
          exact ih (fun j hj => hl j (by simp [hj])) _
      exact key _ (fun i hi => by simpa using hi) 0
    obtain ⟨k, hk⟩ := this
    simp [hb, hk, h, bind, Except.bind]
  · simp [hb]

theorem checkBoundsEnd_iff : ∀ {idx len : List Nat}, idx.length = len.length →
    (checkBoundsEnd idx len = true ↔ List.Forall₂ (· ≤ ·) idx len) := by
  intro idx
  induction idx with
  | nil => intro len h; cases len <;> simp_all [checkBoundsEnd]
  | cons i is ih =>
    intro len h
    match len, h with
    | d :: ds, h =>
      simp only [List.length_cons, Nat.add_right_cancel_iff] at h
      simp only [checkBoundsEnd, List.forall₂_cons]
      split_ifs with hd
      · simp; omega
      · rw [ih h]; simp; omega

/-- **C06** (ranges given by two corners). The elements from an in-range multi-index up to but excluding another multi-index
(which may be one past the last in each direction) are those between their row-major positions; corners outside are
refused by an exception, and nothing else is; a range that is reversed or exceeds the buffer fails an assertion. -/
theorem c06_corners (m : MArr α) (hw : m.WF) (start stop : List Nat) (h1 : start.length = m.len.length)
    (h2 : stop.length = m.len.length) :
    (m.eigenSegment start stop = .error .exception ↔ ¬ (InRange start m.len ∧ List.Forall₂ (· ≤ ·) stop m.len)) ∧
    (InRange start m.len → List.Forall₂ (· ≤ ·) stop m.len →
      rowMajor start m.len ≤ rowMajor stop m.len → rowMajor stop m.len ≤ m.len.prod →
      ∃ s, m.eigenSegment start stop = .ok s ∧ s.length = rowMajor stop m.len - rowMajor start m.len ∧
        ∀ k, k < s.length → s[k]? = m.elems[rowMajor start m.len + k]?) ∧
    (InRange start m.len → List.Forall₂ (· ≤ ·) stop m.len →
      (rowMajor stop m.len < rowMajor start m.len ∨ m.len.prod < rowMajor stop m.len) →
      m.eigenSegment start stop = .error .assertion) := by
  have e1 := checkBounds_iff h1
  have e2 := checkBoundsEnd_iff h2
  refine ⟨?_, ?_, ?_⟩
  · unfold MArr.eigenSegment
    rw [← e1, ← e2]
    by_cases hb : checkBounds start m.len = true <;> by_cases he : checkBoundsEnd stop m.len = true
    · simp only [hb, he, Bool.and_self, if_true, and_self, not_true_eq_false, iff_false]
      split_ifs
      · simp
      · unfold segment; split_ifs <;> simp
    all_goals simp [hb, he]
  · intro hs he hle hp
    have hb := e1.mpr hs
    have he := e2.mpr he
    have hlen : rowMajor start m.len + (rowMajor stop m.len - rowMajor start m.len) ≤ m.elems.length := by
      rw [hw.2.1]; omega
    refine ⟨(m.elems.drop (rowMajor start m.len)).take (rowMajor stop m.len - rowMajor start m.len), ?_, ?_, ?_⟩
    · simp only [MArr.eigenSegment, hb, he, Bool.and_self, if_true, flatIndex_eq h1, flatIndex_eq h2, segment, hlen]
      rw [if_neg (by omega)]
    · simp; omega
    · intro k hk
      simp only [List.length_take, List.length_drop] at hk
      rw [List.getElem?_take_of_lt (by omega), List.getElem?_drop]
  · intro hs he h
    have hb := e1.mpr hs
    have he := e2.mpr he
    simp only [MArr.eigenSegment, hb, he, Bool.and_self, if_true, flatIndex_eq h1, flatIndex_eq h2, segment, hw.2.1]
    rcases h with h | h
    · rw [if_pos h]
    · split_ifs
      · rfl
      · exfalso; omega
      · rfl

/-- Two rows of a matrix. -/
example : (⟨[3, 2], cumulLength [3, 2], [10, 11, 20, 21, 30, 31]⟩ : MArr Nat).eigenSegment [1, 0] [3, 0]
    = .ok [20, 21, 30, 31] := by decide

end Verif.MultiArray
