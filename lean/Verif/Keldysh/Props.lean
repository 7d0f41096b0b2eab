import Verif.Keldysh.Model
import Mathlib.Tactic.Ring
import Mathlib.Tactic.NoncommRing
import Mathlib.Tactic.FinCases
import Mathlib.Tactic.LinearCombination
import Mathlib.Data.Complex.Basic

/-! C31–C34: Keldysh indices, matrix form, bubble contraction. -/
namespace Verif.Keldysh

instance : Fintype Ch := ⟨{Ch.a, Ch.p, Ch.t}, fun c => by cases c <;> simp⟩

/-! ### C31 -/

/-- C31: decoding then encoding is the identity on all 16 Keldysh indices and decoding gives four indices in
`{1, 2}`, the first of which is the most significant one. -/
theorem c31_decode_encode : ∀ k < 16,
    alphasToIK (iKToAlphas k) = k ∧ (iKToAlphas k).length = 4 ∧ (∀ x ∈ iKToAlphas k, x = 1 ∨ x = 2) := by
  decide +kernel

/-- C31: encoding then decoding is the identity on all index quadruples; legs `(1', 2', 1, 2)` have weights
8, 4, 2, 1. -/
theorem c31_encode_decode : ∀ a b c d : Fin 2,
    let q := [a.val + 1, b.val + 1, c.val + 1, d.val + 1]
    iKToAlphas (alphasToIK q) = q ∧ alphasToIK q = 8 * a.val + 4 * b.val + 2 * c.val + d.val ∧
      alphasToIK q < 16 := by
  decide +kernel

/-- The two decoders of the code (1-based and 0-based) agree. -/
theorem c31_bits : ∀ k < 16, ∀ i < 4, (iKToAlphas k).getD i 0 = bit k i + 1 := by decide +kernel

/-! ### C32 -/

/-- C32: in each channel and on each side, un-rotating a rotated Keldysh index (and vice versa) gives it
back, and both maps permute the 16 indices. -/
theorem c32_inverse : ∀ (ch : Ch) (left : Bool), ∀ k < 16,
    unrotate ch left (rotate ch left k) = k ∧ rotate ch left (unrotate ch left k) = k ∧
      rotate ch left k < 16 ∧ unrotate ch left k < 16 := by decide +kernel

/-- C32: hence no component is duplicated. -/
theorem c32_injective (ch : Ch) (left : Bool) {k l : Nat} (hk : k < 16) (hl : l < 16)
    (h : rotate ch left k = rotate ch left l) : k = l := by
  rw [← (c32_inverse ch left k hk).1, h, (c32_inverse ch left l hl).1]

/-- The row and column block of a component used by the scalar integrand (integrand.hpp:234-241) are the
row and column at which the matrix form stores it. -/
theorem c32_left_right : ∀ (ch : Ch), ∀ k < 16,
    unrotate ch true k = 4 * (leftRight ch k).1 + (leftRight ch k).2 := by decide +kernel

/-! ### C34 -/

section
variable {R : Type} [CommRing R] [StarRing R]

/-- C34: the value for Keldysh index `(3, 4, 3', 4')` is the product of the matrix elements `(3, 3')` of the
first and `(4, 4')` of the second propagator. -/
theorem c34_value (g1 g2 : Prop2 R) (a b c d : Fin 2) :
    value g1 g2 (pack a b c d) = g1.matrix a c * g2.matrix b d := by
  fin_cases a <;> fin_cases b <;> fin_cases c <;> fin_cases d <;>
    simp [value, pack, Prop2.matrix]

/-- C34, differentiated bubble: product rule. -/
theorem c34_value_diff (g1 g2 s1 s2 : Prop2 R) (a b c d : Fin 2) :
    valueDiff g1 g2 s1 s2 (pack a b c d)
      = s1.matrix a c * g2.matrix b d + g1.matrix a c * s2.matrix b d := by
  fin_cases a <;> fin_cases b <;> fin_cases c <;> fin_cases d <;>
    simp [valueDiff, pack, Prop2.matrix, add_comm]

/-- C34: a component outside the documented list vanishes for all propagators. -/
theorem c34_zero (g1 g2 s1 s2 : Prop2 R) {k : Nat} (hk : k ∉ nonZeroBubble) :
    value g1 g2 k = 0 ∧ valueDiff g1 g2 s1 s2 k = 0 := by
  simp only [nonZeroBubble, List.mem_cons, List.not_mem_nil, or_false, not_or] at hk
  obtain ⟨h1, h2, h3, h4, h5, h6, h7, h8, h9⟩ := hk
  constructor
  · unfold value
    split <;> first | rfl | contradiction
  · unfold valueDiff
    split <;> first | rfl | contradiction

end

/-- C34: each component of the list is non-zero for some propagators. -/
theorem c34_nonzero : ∀ k ∈ nonZeroBubble, ∃ g1 g2 s1 s2 : Prop2 ℂ,
    value g1 g2 k ≠ 0 ∧ valueDiff g1 g2 s1 s2 k ≠ 0 := by
  intro k hk
  refine ⟨⟨1, 1⟩, ⟨1, 1⟩, ⟨1, 1⟩, ⟨1, 1⟩, ?_⟩
  simp only [nonZeroBubble, List.mem_cons, List.not_mem_nil, or_false] at hk
  rcases hk with h | h | h | h | h | h | h | h | h <;> subst h <;>
    simp [value, valueDiff] <;> norm_num

/-! ### C33 -/

/-- **C33** (propagator pair). The entries of the 4×4 propagator-pair matrix, in both conventions for the internal legs,
for arbitrary matrices (also without causal structure). -/
theorem c33_pair_matrix {R : Type} [CommRing R] (G H : Matrix (Fin 2) (Fin 2) R) (a b c d : Fin 2) :
    piMatrix .p G H (⟨2 * a + b, by omega⟩) (⟨2 * c + d, by omega⟩) = G a c * H b d ∧
    (∀ ch, ch ≠ .p → piMatrix ch G H (⟨2 * a + d, by omega⟩) (⟨2 * c + b, by omega⟩) = G a c * H b d) := by
  constructor
  · fin_cases a <;> fin_cases b <;> fin_cases c <;> fin_cases d <;> rfl
  · intro ch hch
    cases ch
    · fin_cases a <;> fin_cases b <;> fin_cases c <;> fin_cases d <;> rfl
    · exact absurd rfl hch
    · fin_cases a <;> fin_cases b <;> fin_cases c <;> fin_cases d <;> rfl

/-- **C33** (differentiated pair). Product rule. -/
theorem c33_pair_matrix_diff {R : Type} [CommRing R] (ch : Ch) (G H S T : Matrix (Fin 2) (Fin 2) R) :
    piMatrixDiff ch G H S T = piMatrix ch S H + piMatrix ch G T := by
  ext i j
  cases ch <;> fin_cases i <;> fin_cases j <;> rfl

/-- Internal Keldysh index belonging to column `c` of the left and row `r` of the right matrix. -/
def internalIndex (ch : Ch) (c r : Fin 4) : Nat :=
  match ch with
  | .p => pack (c / 2) (c % 2) (r / 2) (r % 2)
  | _ => pack (c / 2) (r % 2) (r / 2) (c % 2)

theorem internal_perm : ∀ ch : Ch,
    (((List.finRange 4).product (List.finRange 4)).map fun x => internalIndex ch x.1 x.2).Perm (List.range 16) := by
  decide +kernel

theorem contraction_indices : ∀ (ch : Ch), ∀ i j c r : Fin 4,
    (indicesSum ch (rotate ch true (4 * i.val + j.val)) (internalIndex ch c r)).1 = rotate ch true (4 * i.val + c.val) ∧
    (indicesSum ch (rotate ch true (4 * i.val + j.val)) (internalIndex ch c r)).2 = rotate ch false (4 * j.val + r.val) := by
  decide +kernel

/-- The propagator-pair matrix holds the scalar values at the internal index. -/
theorem piMatrix_internal {R : Type} [CommRing R] [StarRing R] (ch : Ch) (g1 g2 : Prop2 R) (c r : Fin 4) :
    piMatrix ch g1.matrix g2.matrix c r = value g1 g2 (internalIndex ch c r) := by
  cases ch <;> fin_cases c <;> fin_cases r <;>
    simp [piMatrix, internalIndex, pack, value, Prop2.matrix]

theorem piMatrixDiff_internal {R : Type} [CommRing R] [StarRing R] (ch : Ch) (g1 g2 s1 s2 : Prop2 R)
    (c r : Fin 4) :
    piMatrixDiff ch g1.matrix g2.matrix s1.matrix s2.matrix c r
      = valueDiff g1 g2 s1 s2 (internalIndex ch c r) := by
  cases ch <;> fin_cases c <;> fin_cases r <;>
    simp [piMatrixDiff, internalIndex, pack, valueDiff, Prop2.matrix, add_comm]

theorem sum_nonZero {R : Type} [CommRing R] (f : Nat → R) (h : ∀ k < 16, k ∉ nonZeroBubble → f k = 0) :
    (nonZeroBubble.map f).sum = ((List.range 16).map f).sum := by
  have z : ∀ k, k < 16 → k ∉ nonZeroBubble → f k = 0 := h
  simp only [nonZeroBubble, List.range_succ_eq_map, List.map, List.sum_cons, List.sum_nil,
    List.range_zero]
  rw [z 0 (by decide) (by decide), z 1 (by decide) (by decide), z 2 (by decide) (by decide),
    z 4 (by decide) (by decide), z 5 (by decide) (by decide), z 8 (by decide) (by decide),
    z 10 (by decide) (by decide)]
  ring

/-- The general contraction: if the pair matrix holds the pair values and the pair vanishes outside the list,
then the matrix product holds the scalar contraction of every external component. -/
theorem contraction {R : Type} [CommRing R] (ch : Ch) (ΓL ΓR : Nat → R) (M : Matrix (Fin 4) (Fin 4) R)
    (P : Nat → R) (hM : ∀ c r, M c r = P (internalIndex ch c r)) (hP : ∀ k, k ∉ nonZeroBubble → P k = 0)
    (i j : Fin 4) :
    integrandMatrix ch ΓL ΓR M i j = integrandScalar ch ΓL ΓR P (rotate ch true (4 * i.val + j.val)) := by
  set i0 := rotate ch true (4 * i.val + j.val) with hi0
  unfold integrandScalar
  rw [sum_nonZero (fun i2 => ΓL (indicesSum ch i0 i2).1 * P i2 * ΓR (indicesSum ch i0 i2).2)
    (fun k _ hk => by simp only [hP k hk]; ring)]
  rw [← ((internal_perm ch).map _).sum_eq, List.map_map]
  have lhs : integrandMatrix ch ΓL ΓR M i j
      = ∑ c : Fin 4, ∑ r : Fin 4, ΓL (rotate ch true (4 * i.val + c.val)) * M c r * ΓR (rotate ch false (4 * j.val + r.val)) := by
    simp only [integrandMatrix, Matrix.mul_apply, loadLeft, loadRight, Finset.sum_mul]
    rw [Finset.sum_comm]
  rw [lhs]
  have hterm : ∀ c r : Fin 4, ΓL (rotate ch true (4 * i.val + c.val)) * M c r * ΓR (rotate ch false (4 * j.val + r.val))
      = ((fun i2 => ΓL (indicesSum ch i0 i2).1 * P i2 * ΓR (indicesSum ch i0 i2).2) ∘
          fun x : Fin 4 × Fin 4 => internalIndex ch x.1 x.2) (c, r) := by
    intro c r
    obtain ⟨e1, e2⟩ := contraction_indices ch i j c r
    simp only [Function.comp, hi0, e1, e2, hM]
  simp only [hterm]
  generalize ((fun i2 => ΓL (indicesSum ch i0 i2).1 * P i2 * ΓR (indicesSum ch i0 i2).2) ∘
          fun x : Fin 4 × Fin 4 => internalIndex ch x.1 x.2) = f
  simp only [Fin.sum_univ_four]
  have : (List.finRange 4).product (List.finRange 4) = [(0,0),(0,1),(0,2),(0,3),(1,0),(1,1),(1,2),(1,3),
    (2,0),(2,1),(2,2),(2,3),(3,0),(3,1),(3,2),(3,3)] := by decide
  rw [this]
  simp only [List.map, List.sum_cons, List.sum_nil]
  ring

/-- C33: entry `(i, j)` of the vectorised integrand is the scalar contraction for the external component
where it is stored, for plain and differentiated bubbles, all vertices and all propagators. -/
theorem c33_contraction {R : Type} [CommRing R] [StarRing R] (ch : Ch) (ΓL ΓR : Nat → R)
    (g1 g2 s1 s2 : Prop2 R) (i j : Fin 4) :
    integrandMatrix ch ΓL ΓR (piMatrix ch g1.matrix g2.matrix) i j
      = integrandScalar ch ΓL ΓR (value g1 g2) (rotate ch true (4 * i.val + j.val)) ∧
    integrandMatrix ch ΓL ΓR (piMatrixDiff ch g1.matrix g2.matrix s1.matrix s2.matrix) i j
      = integrandScalar ch ΓL ΓR (valueDiff g1 g2 s1 s2) (rotate ch true (4 * i.val + j.val)) :=
  ⟨contraction ch ΓL ΓR _ _ (piMatrix_internal ch g1 g2) (fun _ hk => (c34_zero g1 g2 s1 s2 hk).1) i j,
   contraction ch ΓL ΓR _ _ (piMatrixDiff_internal ch g1 g2 s1 s2)
     (fun _ hk => (c34_zero g1 g2 s1 s2 hk).2) i j⟩

theorem foldl_update {α R : Type} (key : α → Nat) (val : α → R) (L : List α) (v : Nat → R) (x : α)
    (hx : x ∈ L) (hinj : ∀ y ∈ L, key x = key y → y = x) :
    L.foldl (fun (v : Nat → R) y => fun k => if k = key y then val y else v k) v (key x) = val x := by
  induction L using List.reverseRecOn with
  | nil => simp at hx
  | append_singleton L y ih =>
    rw [List.foldl_append]
    simp only [List.foldl_cons, List.foldl_nil]
    by_cases h : key x = key y
    · rw [if_pos h, hinj y (by simp) h]
    · rw [if_neg h]
      refine ih ?_ (fun z hz => hinj z (by simp [hz]))
      rcases List.mem_append.mp hx with h' | h'
      · exact h'
      · rw [List.mem_singleton] at h'; exact absurd (by rw [h']) h

/-- The write-back puts every matrix entry at its own component, whatever the array held before. -/
theorem writeBack_spec {R : Type} [CommRing R] (ch : Ch) (M : Matrix (Fin 4) (Fin 4) R) (v : Nat → R)
    (i j : Fin 4) : writeBack ch M v (rotate ch true (4 * i.val + j.val)) = M i j := by
  have e : writeBack ch M v = ((List.finRange 4).flatMap fun i => (List.finRange 4).map (Prod.mk i)).foldl
      (fun (v : Nat → R) (y : Fin 4 × Fin 4) => fun k =>
        if k = rotate ch true (4 * y.1.val + y.2.val) then M y.1 y.2 else v k) v := by
    rw [List.foldl_flatMap]
    simp only [List.foldl_map]
    rfl
  rw [e]
  refine foldl_update (fun y : Fin 4 × Fin 4 => rotate ch true (4 * y.1.val + y.2.val))
    (fun y => M y.1 y.2) _ v (i, j) (by simp) ?_
  rintro ⟨a, b⟩ - h
  have := c32_injective ch true (by omega) (by omega) h
  simp only at this
  ext <;> simp <;> omega

/-- C33, end to end: after the write-back every external Keldysh component holds its scalar contraction. -/
theorem c33_stored {R : Type} [CommRing R] [StarRing R] (ch : Ch) (ΓL ΓR : Nat → R) (g1 g2 : Prop2 R)
    (v : Nat → R) (i0 : Nat) (h : i0 < 16) :
    writeBack ch (integrandMatrix ch ΓL ΓR (piMatrix ch g1.matrix g2.matrix)) v i0
      = integrandScalar ch ΓL ΓR (value g1 g2) i0 := by
  obtain ⟨h1, h2, h3, h4⟩ := c32_inverse ch true i0 h
  set k := unrotate ch true i0 with hk
  have e : i0 = rotate ch true (4 * (⟨k / 4, by omega⟩ : Fin 4).val + (⟨k % 4, by omega⟩ : Fin 4).val) := by
    simp only
    rw [Nat.div_add_mod, h2]
  rw [e, writeBack_spec, (c33_contraction ch ΓL ΓR g1 g2 g1 g2 _ _).1]

/-- C33, spin sum (channel `t`, spin 0 and channel `a`, spin 1; integrand.hpp:1160-1180): the vectorised form
is the sum of the three scalar terms `2 V Π V + V Π V̂ + V̂ Π V` (integrand.hpp:313-330). -/
theorem c33_spin_sum {R : Type} [CommRing R] (VL VLh VR VRh P : Matrix (Fin 4) (Fin 4) R) :
    (VL + VLh) * P * VR + VL * P * (VR + VRh)
      = (2 : R) • (VL * P * VR) + VL * P * VRh + VLh * P * VR := by
  rw [two_smul]
  noncomm_ring

end Verif.Keldysh
