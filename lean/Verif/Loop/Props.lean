import Verif.Loop.Model
import Verif.Loop.Spec
import Mathlib.Tactic.FinCases
import Mathlib.Tactic.Ring
import Mathlib.Tactic.Linarith
import Mathlib.Tactic.FieldSimp
import Mathlib.Tactic.LinearCombination
import Mathlib.Algebra.BigOperators.Fin

/-! C92: the integrand of the self-energy loop is the full contraction of vertex and propagator. -/
namespace Verif.Loop

open Keldysh

variable {R : Type} [CommRing R]

theorem rotate_t : ∀ r c : Fin 4, rotate .t false (4 * c.val + r.val)
    = leg (Fin.ofNat 2 (c.val % 2)) (Fin.ofNat 2 (r.val / 2)) (Fin.ofNat 2 (c.val / 2)) (Fin.ofNat 2 (r.val % 2)) := by
  decide +kernel

theorem rotate_a : ∀ r c : Fin 4, rotate .a false (4 * c.val + r.val)
    = leg (Fin.ofNat 2 (r.val / 2)) (Fin.ofNat 2 (c.val % 2)) (Fin.ofNat 2 (c.val / 2)) (Fin.ofNat 2 (r.val % 2)) := by
  decide +kernel

theorem propRow_eq (G : Matrix (Fin 2) (Fin 2) R) : propRow G = ![G 0 0, G 1 0, G 0 1, G 1 1] := by
  funext i
  fin_cases i <;> rfl

theorem sum_load (version : Bool) (G : Matrix (Fin 2) (Fin 2) R) (Γ : Nat → R) (out inn : Fin 2) (c : Fin 4)
    (hc : c.val = 2 * inn.val + out.val) :
    ∑ r : Fin 4, propRow G r * loadVertex version Γ r c
      = if version then closeCrossed G Γ out inn else closeSecond G Γ out inn := by
  have e1 : (Fin.ofNat 2 (c.val % 2)) = out := by apply Fin.ext; simp [Fin.ofNat]; omega
  have e2 : (Fin.ofNat 2 (c.val / 2)) = inn := by apply Fin.ext; simp [Fin.ofNat]; omega
  cases version
  · simp only [loadVertex, channel, Bool.false_eq_true, if_false, rotate_t, e1, e2, propRow_eq, closeSecond,
      Fin.sum_univ_four, Fin.sum_univ_two]
    simp [Matrix.cons_val]
    ring
  · simp only [loadVertex, channel, if_true, rotate_a, e1, e2, propRow_eq, closeCrossed,
      Fin.sum_univ_four, Fin.sum_univ_two]
    simp [Matrix.cons_val]
    ring

/-- C92: entry `2 in + out` of the row computed at one frequency is the contraction of the propagator with
the vertex over both internal indices, for every propagator matrix and every vertex: over the second legs
for version 0, over `1'` and `2` for version 1. With the spin sum it is taken with the weights 2 and 1. -/
theorem c92_contraction (version allSpins : Bool) (G : Matrix (Fin 2) (Fin 2) R) (Γ : Nat → Nat → R)
    (out inn : Fin 2) (c : Fin 4) (hc : c.val = 2 * inn.val + out.val) :
    row version allSpins G Γ c =
      match version, allSpins with
      | false, false => closeSecond G (Γ 0) out inn
      | false, true => 2 * closeSecond G (Γ 0) out inn + closeSecond G (Γ 1) out inn
      | true, false => closeCrossed G (Γ 2) out inn
      | true, true => 2 * closeCrossed G (Γ 2) out inn + closeCrossed G (Γ 1) out inn := by
  have key := fun s => sum_load version G (Γ s) out inn c hc
  cases allSpins
  · have := key (pickSpin version 0)
    cases version <;> simpa [row, vertexMatrix, pickSpin] using this
  · have e : row version true G Γ c = 2 * (∑ r : Fin 4, propRow G r * loadVertex version (Γ (pickSpin version 0)) r c)
        + ∑ r : Fin 4, propRow G r * loadVertex version (Γ (pickSpin version 1)) r c := by
      rw [Finset.mul_sum, ← Finset.sum_add_distrib]
      refine Finset.sum_congr rfl fun r _ => ?_
      show propRow G r * (loadVertex version (Γ (pickSpin version 0)) r c * 2
        + loadVertex version (Γ (pickSpin version 1)) r c) = _
      ring
    rw [e, key, key]
    cases version <;> simp [pickSpin]

/-- C92: if the components are those of one vertex (`Γ 0` for different spins, `Γ 1` its crossed partner,
`Γ 2` their sum for equal spins), version 1 with its final sign gives the loop over the equal-spin vertex,
closed over the second legs. -/
theorem c92_versions_partial (G : Matrix (Fin 2) (Fin 2) R) (Γ : Nat → Nat → R) (h : Crossing (Γ 0) (Γ 1))
    (h2 : ∀ a b c d, Γ 2 (leg a b c d) = Γ 0 (leg a b c d) + Γ 1 (leg a b c d)) (out inn : Fin 2) (c : Fin 4)
    (hc : c.val = 2 * inn.val + out.val) :
    row false false G Γ c = closeSecond G (Γ 0) out inn ∧
    -row true false G Γ c = closeSecond G (Γ 2) out inn ∧
    row false true G Γ c = closeSecond G (Γ 0) out inn + closeSecond G (Γ 2) out inn ∧
    -row true true G Γ c = closeSecond G (Γ 0) out inn + 2 * closeSecond G (Γ 2) out inn := by
  refine ⟨c92_contraction false false G Γ out inn c hc, ?_, ?_, ?_⟩
  · rw [c92_contraction true false G Γ out inn c hc]
    simp only [closeCrossed, closeSecond, h2, h _ _ _ _, Fin.sum_univ_two]
    ring
  · rw [c92_contraction false true G Γ out inn c hc]
    simp only [closeSecond, h2, h _ _ _ _, Fin.sum_univ_two]
    ring
  · rw [c92_contraction true true G Γ out inn c hc]
    simp only [closeCrossed, closeSecond, h2, h _ _ _ _, Fin.sum_univ_two]
    ring

/-- The two versions do not give the same self-energy for the same vertex, neither with nor without the sum
over spins (loop.hpp:22 expects them to). -/
theorem c92_versions_refuted : ∃ (G : Matrix (Fin 2) (Fin 2) ℚ) (Γ : Nat → Nat → ℚ),
    Crossing (Γ 0) (Γ 1) ∧ (∀ a b c d, Γ 2 (leg a b c d) = Γ 0 (leg a b c d) + Γ 1 (leg a b c d)) ∧
    -row true false G Γ 0 ≠ row false false G Γ 0 ∧
    ∃ Γ' : Nat → Nat → ℚ, Crossing (Γ' 0) (Γ' 1) ∧
      (∀ a b c d, Γ' 2 (leg a b c d) = Γ' 0 (leg a b c d) + Γ' 1 (leg a b c d)) ∧
      -row true true G Γ' 0 ≠ row false true G Γ' 0 := by
  refine ⟨!![1, 1; 1, 1], fun s _ => if s = 0 then 1 else if s = 1 then -1 else 0, ?_, ?_, ?_,
    fun s k => if s = 0 then (if k / 8 = 1 then 1 else 0) else if s = 1 then (if k / 4 % 2 = 1 then -1 else 0)
      else (if k / 8 = 1 then 1 else 0) - (if k / 4 % 2 = 1 then 1 else 0), ?_, ?_, ?_⟩
  · intro a b c d
    rfl
  · intro a b c d
    norm_num
  · rw [c92_contraction true false _ _ 0 0 0 rfl, c92_contraction false false _ _ 0 0 0 rfl]
    simp [closeCrossed, closeSecond, Fin.sum_univ_two]
    norm_num
  · unfold Crossing
    decide +kernel
  · decide +kernel
  · rw [c92_contraction true true _ _ 0 0 0 rfl, c92_contraction false true _ _ 0 0 0 rfl]
    simp [closeCrossed, closeSecond, Fin.sum_univ_two, leg]
    norm_num

/-- The hypotheses on the vertex are met by the bare interaction (off-diagonal in spin, crossed partner of
opposite sign, zero for equal spins), whose loop is not zero. -/
example : ∃ Γ : Nat → Nat → ℚ, Crossing (Γ 0) (Γ 1) ∧
    (∀ a b c d, Γ 2 (leg a b c d) = Γ 0 (leg a b c d) + Γ 1 (leg a b c d)) ∧
    row false false !![0, 1; 1, 5] Γ 0 ≠ 0 := by
  refine ⟨fun s k => if s = 0 then (if k ∈ [1, 2, 4, 7, 8, 11, 13, 14] then 1/2 else 0)
    else if s = 1 then -(if k ∈ [1, 2, 4, 7, 8, 11, 13, 14] then 1/2 else 0) else 0, ?_, ?_, ?_⟩
  · unfold Crossing; decide +kernel
  · decide +kernel
  · rw [c92_contraction false false _ _ 0 0 0 rfl]
    simp [closeSecond, Fin.sum_univ_two, leg]

section Table
variable [StarRing R]

/-- C92: with the sum over Keldysh indices outside the integral, the tables of vertex components give the
retarded (type 2: `out = 0`, `in = 1`) and the Keldysh (type 0) component of the same contraction. -/
theorem c92_table (g : Prop2 R) (Γ : Nat → R) :
    table false 2 g Γ = .ok (closeSecond g.matrix Γ 0 1) ∧
    table false 0 g Γ = .ok (closeSecond g.matrix Γ 0 0) := by
  constructor <;>
  · simp only [table, components, closeSecond, Fin.sum_univ_two, bind, Except.bind, pure, Except.pure]
    simp [Prop2.matrix, leg]
    ring

/-- C92: the tables of version 1 close the loop over the other pair of legs, which is the same for a vertex
with exchange symmetry. -/
theorem c92_table_crossed (g : Prop2 R) (Γ : Nat → R) (h : Exchange Γ) :
    table true 2 g Γ = .ok (closeCrossed g.matrix Γ 0 1) ∧
    table true 0 g Γ = .ok (closeCrossed g.matrix Γ 0 0) := by
  have h' : ∀ a b c d : Fin 2, Γ (8 * a.val + 4 * b.val + 2 * c.val + d.val)
      = Γ (8 * b.val + 4 * a.val + 2 * d.val + c.val) := h
  have e1 := h' 0 0 1 1
  have e2 := h' 0 1 0 1
  have e3 := h' 0 1 1 1
  have e4 := h' 0 0 1 0
  have e5 := h' 0 1 0 0
  have e6 := h' 0 1 1 0
  norm_num at e1 e2 e3 e4 e5 e6
  constructor
  · simp only [table, components, closeCrossed, Fin.sum_univ_two, bind, Except.bind, pure, Except.pure]
    simp [Prop2.matrix, leg, e2, e3]
    ring
  · simp only [table, components, closeCrossed, Fin.sum_univ_two, bind, Except.bind, pure, Except.pure]
    simp [Prop2.matrix, leg, e4, e5, e6]
    ring

/-- The calculation that uses these tables cannot run: it asks for type 1, for which there is no table, and
stops at the assertion whatever the vertex and the propagator. -/
theorem c92_unswitched_refuted (version : Bool) (g : Prop2 R) (Γ : Nat → R) (old : R × R) :
    unswitched version g Γ old = .error .assertion := by
  simp [unswitched, table, components, bind, Except.bind]

end Table

section Contour
variable {K : Type} [Field K] [CharZero K]

theorem rowContour_eq (Γ : Nat → Nat → K) (gr ga gk : K) (f : Fin 2 → Fin 2 → K)
    (hf : ∀ out inn, f out inn = closeSecond (contourProp gr ga gk) (Γ 0) out inn) :
    rowContour false false (contourProp gr ga gk) Γ =
      ![1/2 * (f 0 0 - f 1 0 - f 0 1 + f 1 1), 1/2 * (f 0 0 + f 1 0 - f 0 1 - f 1 1),
        1/2 * (f 0 0 - f 1 0 + f 0 1 - f 1 1), 1/2 * (f 0 0 + f 1 0 + f 0 1 + f 1 1)] := by
  have e0 := c92_contraction false false (contourProp gr ga gk) Γ 0 0 0 rfl
  have e1 := c92_contraction false false (contourProp gr ga gk) Γ 1 0 1 rfl
  have e2 := c92_contraction false false (contourProp gr ga gk) Γ 0 1 2 rfl
  have e3 := c92_contraction false false (contourProp gr ga gk) Γ 1 1 3 rfl
  funext c
  fin_cases c <;>
  · simp only [rowContour, Fin.sum_univ_four, e0, e1, e2, e3, ← hf]
    simp [toKeldysh, Matrix.cons_val]
    ring

/-- C92: in the contour basis every component of the row is the one obtained by first rotating the vertex
and the propagator to the Keldysh basis. -/
theorem c92_contour (Γ : Nat → Nat → K) (gr ga gk : K) (out inn : Fin 2) (c : Fin 4)
    (hc : c.val = 2 * inn.val + out.val) (Γk : Nat → K)
    (hΓ : ∀ a b c d, Γk (leg a b c d) = rotateVertex (Γ 0) a b c d) :
    rowContour false false (contourProp gr ga gk) Γ c = closeSecond !![0, ga; gr, gk] Γk out inn := by
  rw [rowContour_eq Γ gr ga gk _ fun _ _ => rfl]
  have h2 : (2 : K) ≠ 0 := two_ne_zero
  have hcv : c = Fin.ofNat 4 (2 * inn.val + out.val) := by
    apply Fin.ext; simp [Fin.ofNat]; omega
  subst hcv
  simp only [closeSecond, hΓ, rotateVertex]
  generalize Γ 0 = V
  clear hΓ hc
  fin_cases out <;> fin_cases inn <;>
  · simp [Fin.ofNat, Fin.sum_univ_two, rot, contourProp, Matrix.cons_val]
    ring

/-- C92: the scalar evaluations in the contour basis give the same retarded, Keldysh and vanishing
component as the vectorised one. -/
theorem c92_contour_scalar (version allSpins : Bool) (G : Matrix (Fin 2) (Fin 2) K) (Γ : Nat → Nat → K) :
    scalarContour version allSpins G Γ
      = (rowContour version allSpins G Γ 2, rowContour version allSpins G Γ 0, rowContour version allSpins G Γ 3) := by
  simp only [scalarContour, combine, rowContour, Fin.sum_univ_four]
  simp [toKeldysh, Matrix.cons_val]
  refine ⟨?_, ?_, ?_⟩ <;> ring

/-- C92: likewise with the sum over contour indices outside the integral. -/
theorem c92_contour_table (G : Matrix (Fin 2) (Fin 2) K) (Γ : Nat → Nat → K) :
    tablesContour false G (Γ 0) = .ok (scalarContour false false G Γ) := by
  have e0 := c92_contraction false false G Γ 0 0 0 rfl
  have e1 := c92_contraction false false G Γ 1 0 1 rfl
  have e2 := c92_contraction false false G Γ 0 1 2 rfl
  have e3 := c92_contraction false false G Γ 1 1 3 rfl
  simp only [tablesContour, tableContour, componentsContour, scalarContour, e0, e1, e2, e3, closeSecond,
    Fin.sum_univ_two, bind, Except.bind, pure, Except.pure]
  simp [leg, combine]
  refine ⟨?_, ?_, ?_⟩ <;> ring

/-- C92: and for version 1 if the vertex has exchange symmetry. -/
theorem c92_contour_table_crossed (G : Matrix (Fin 2) (Fin 2) K) (Γ : Nat → Nat → K) (h : Exchange (Γ 2)) :
    tablesContour true G (Γ 2) = .ok (scalarContour true false G Γ) := by
  have e0 := c92_contraction true false G Γ 0 0 0 rfl
  have e1 := c92_contraction true false G Γ 1 0 1 rfl
  have e2 := c92_contraction true false G Γ 0 1 2 rfl
  have e3 := c92_contraction true false G Γ 1 1 3 rfl
  have h' : ∀ a b c d : Fin 2, Γ 2 (8 * a.val + 4 * b.val + 2 * c.val + d.val)
      = Γ 2 (8 * b.val + 4 * a.val + 2 * d.val + c.val) := h
  have x1 := h' 1 0 0 0
  have x2 := h' 0 0 1 0
  have x3 := h' 1 0 1 0
  have x4 := h' 1 0 0 1
  have x5 := h' 1 0 1 1
  have x6 := h' 1 1 1 0
  norm_num at x1 x2 x3 x4 x5 x6
  simp only [tablesContour, tableContour, componentsContour, scalarContour, e0, e1, e2, e3, closeCrossed,
    Fin.sum_univ_two, bind, Except.bind, pure, Except.pure]
  simp [leg, combine, x1, x2, x3, x4, x5, x6]
  refine ⟨?_, ?_, ?_⟩ <;> ring

end Contour

end Verif.Loop
