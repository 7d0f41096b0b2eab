import Verif.Spline.Model
import Verif.Spline.Spec
import Verif.Index.Lemmas
import Mathlib.Tactic.Ring
import Mathlib.Tactic.FieldSimp
import Mathlib.Tactic.Module
import Mathlib.Tactic.FinCases
import Mathlib.Algebra.BigOperators.Ring.Finset

namespace Verif.Spline
open Verif Verif.Index

variable {K W : Type} [Field K] [AddCommGroup W] [Module K W]

/-- Weight of the entry `c` of `(f0, f1, b0, b1)`. -/
def basis (h t : K) : Fin 4 → K :=
  let s := t / h
  ![1 - 3 * s ^ 2 + 2 * s ^ 3, 3 * s ^ 2 - 2 * s ^ 3, h * (s - 2 * s ^ 2 + s ^ 3), h * (s ^ 3 - s ^ 2)]

theorem hermite_basis (h : K) (f0 f1 b0 b1 : W) (t : K) :
    hermite h f0 f1 b0 b1 t
      = basis h t 0 • f0 + basis h t 1 • f1 + basis h t 2 • b0 + basis h t 3 • b1 := rfl

theorem basis_sum (h t : K) (hh : h ≠ 0) (c : Fin 4) :
    (∑ p : Fin 4, pows t p * (1 / h ^ (p : Nat)) * ((entry tab4 p c : Int) : K)) * h ^ ((c : Nat) / 2) = basis h t c := by
  fin_cases c <;> simp [Fin.sum_univ_four, pows, entry, tab4, basis] <;> field_simp <;> ring

/-- Bits of the derivative blocks in two dimensions. -/
def dx2 : Fin 4 → Nat := ![0, 1, 0, 1]
def dy2 : Fin 4 → Nat := ![0, 0, 1, 1]
/-- Bits of the derivative blocks in three dimensions. -/
def dx3 : Fin 8 → Nat := ![0, 1, 0, 0, 1, 1, 0, 1]
def dy3 : Fin 8 → Nat := ![0, 0, 1, 0, 1, 0, 1, 1]
def dz3 : Fin 8 → Nat := ![0, 0, 0, 1, 0, 1, 1, 1]

theorem tab16_prod : ∀ i j d k : Fin 4, entry tab16 ((i : Nat) * 4 + j) (4 * d + k)
    = entry tab4 i (2 * dy2 d + k / 2) * entry tab4 j (2 * dx2 d + k % 2) := by decide +kernel

theorem tab64_prod : ∀ i j l : Fin 4, ∀ d k : Fin 8, entry tab64 ((i : Nat) * 16 + (j : Nat) * 4 + l) (8 * d + k)
    = entry tab4 i (2 * dz3 d + k / 4) * entry tab4 j (2 * dy3 d + k / 2 % 2) * entry tab4 l (2 * dx3 d + k % 2) := by
  decide +kernel

/-- `basis` at a column number. -/
def bas (h t : K) (c : Nat) : K :=
  (∑ p : Fin 4, pows t p * (1 / h ^ (p : Nat)) * ((entry tab4 p c : Int) : K)) * h ^ (c / 2)

theorem bas_0 (h t : K) (hh : h ≠ 0) : bas h t 0 = basis h t 0 := basis_sum h t hh 0
theorem bas_1 (h t : K) (hh : h ≠ 0) : bas h t 1 = basis h t 1 := basis_sum h t hh 1
theorem bas_2 (h t : K) (hh : h ≠ 0) : bas h t 2 = basis h t 2 := basis_sum h t hh 2
theorem bas_3 (h t : K) (hh : h ≠ 0) : bas h t 3 = basis h t 3 := basis_sum h t hh 3

theorem sum_swap4 {a b c d : Nat} (X : Fin a → Fin b → Fin c → Fin d → W) :
    ∑ i, ∑ j, ∑ k, ∑ l, X i j k l = ∑ k, ∑ l, ∑ i, ∑ j, X i j k l := by
  calc ∑ i, ∑ j, ∑ k, ∑ l, X i j k l = ∑ i, ∑ k, ∑ j, ∑ l, X i j k l :=
        Finset.sum_congr rfl fun _ _ => Finset.sum_comm
    _ = ∑ k, ∑ i, ∑ j, ∑ l, X i j k l := Finset.sum_comm
    _ = ∑ k, ∑ i, ∑ l, ∑ j, X i j k l :=
        Finset.sum_congr rfl fun _ _ => Finset.sum_congr rfl fun _ _ => Finset.sum_comm
    _ = ∑ k, ∑ l, ∑ i, ∑ j, X i j k l := Finset.sum_congr rfl fun _ _ => Finset.sum_comm

theorem eval1_bas (h t : K) (hh : h ≠ 0) (f b : Fin 2 → W) :
    eval1 (coeffs1 h f b) t = hermite h (f 0) (f 1) (b 0) (b 1) t := by
  have e : eval1 (coeffs1 h f b) t
      = bas h t 0 • f 0 + bas h t 1 • f 1 + bas h t 2 • b 0 + bas h t 3 • b 1 := by
    simp [eval1, coeffs1, bas, Fin.sum_univ_four]
    module
  rw [e, hermite_basis, bas_0 h t hh, bas_1 h t hh, bas_2 h t hh, bas_3 h t hh]

theorem scale2_eq (dw dv : K) (d k : Fin 4) :
    scale2 dw dv d = dv ^ ((2 * dy2 d + (k : Nat) / 2) / 2) * dw ^ ((2 * dx2 d + (k : Nat) % 2) / 2) := by
  have h1 : (2 * dy2 d + (k : Nat) / 2) / 2 = dy2 d := by omega
  have h2 : (2 * dx2 d + (k : Nat) % 2) / 2 = dx2 d := by omega
  rw [h1, h2]
  fin_cases d <;> simp [scale2, dx2, dy2, mul_comm]

theorem scale3_eq (dw dv dvp : K) (d k : Fin 8) :
    scale3 dw dv dvp d = dvp ^ ((2 * dz3 d + (k : Nat) / 4) / 2) * dv ^ ((2 * dy3 d + (k : Nat) / 2 % 2) / 2)
      * dw ^ ((2 * dx3 d + (k : Nat) % 2) / 2) := by
  have h1 : (2 * dz3 d + (k : Nat) / 4) / 2 = dz3 d := by omega
  have h2 : (2 * dy3 d + (k : Nat) / 2 % 2) / 2 = dy3 d := by omega
  have h3 : (2 * dx3 d + (k : Nat) % 2) / 2 = dx3 d := by omega
  rw [h1, h2, h3]
  fin_cases d <;> simp [scale3, dx3, dy3, dz3] <;> ring

theorem eval2_bas (dw dv : K) (F : Fin 4 → Fin 4 → W) (t u : K) :
    eval2 (coeffs2 dw dv F) t u
      = ∑ d : Fin 4, ∑ k : Fin 4, (bas dv u (2 * dy2 d + k / 2) * bas dw t (2 * dx2 d + k % 2)) • F d k := by
  unfold eval2 coeffs2
  simp only [Finset.smul_sum]
  rw [sum_swap4]
  refine Finset.sum_congr rfl fun d _ => Finset.sum_congr rfl fun k _ => ?_
  simp only [smul_smul]
  simp only [← Finset.sum_smul]
  congr 1
  rw [bas, bas, mul_mul_mul_comm, ← scale2_eq dw dv d k, Finset.sum_mul_sum, Finset.sum_mul]
  refine Finset.sum_congr rfl fun i _ => ?_
  rw [Finset.sum_mul]
  refine Finset.sum_congr rfl fun j _ => ?_
  rw [tab16_prod]
  push_cast
  ring

theorem sum_swap5 {a b c d e : Nat} (X : Fin a → Fin b → Fin c → Fin d → Fin e → W) :
    ∑ i, ∑ j, ∑ m, ∑ k, ∑ l, X i j m k l = ∑ k, ∑ l, ∑ i, ∑ j, ∑ m, X i j m k l := by
  calc ∑ i, ∑ j, ∑ m, ∑ k, ∑ l, X i j m k l = ∑ i, ∑ k, ∑ l, ∑ j, ∑ m, X i j m k l :=
        Finset.sum_congr rfl fun i _ => sum_swap4 (X i)
    _ = ∑ k, ∑ i, ∑ l, ∑ j, ∑ m, X i j m k l := Finset.sum_comm
    _ = ∑ k, ∑ l, ∑ i, ∑ j, ∑ m, X i j m k l := Finset.sum_congr rfl fun _ _ => Finset.sum_comm

theorem eval3_bas (dw dv dvp : K) (F : Fin 8 → Fin 8 → W) (t u s : K) :
    eval3 (coeffs3 dw dv dvp F) t u s
      = ∑ d : Fin 8, ∑ k : Fin 8, (bas dvp s (2 * dz3 d + k / 4) * bas dv u (2 * dy3 d + k / 2 % 2)
          * bas dw t (2 * dx3 d + k % 2)) • F d k := by
  unfold eval3 coeffs3
  simp only [Finset.smul_sum]
  rw [sum_swap5]
  refine Finset.sum_congr rfl fun d _ => Finset.sum_congr rfl fun k _ => ?_
  simp only [smul_smul]
  simp only [← Finset.sum_smul]
  congr 1
  rw [bas, bas, bas, mul_mul_mul_comm (∑ p : Fin 4, _), mul_mul_mul_comm (_ * _) (_ * _), ← scale3_eq dw dv dvp d k, Finset.sum_mul_sum, Finset.sum_mul,
    Finset.sum_mul]
  refine Finset.sum_congr rfl fun i _ => ?_
  rw [Finset.sum_mul_sum, Finset.sum_mul]
  refine Finset.sum_congr rfl fun j _ => ?_
  rw [Finset.sum_mul]
  refine Finset.sum_congr rfl fun l _ => ?_
  rw [tab64_prod]
  push_cast
  ring

theorem eval2_bicubic (dw dv : K) (hw : dw ≠ 0) (hv : dv ≠ 0) (F : Fin 4 → Fin 4 → W) (t u : K) :
    eval2 (coeffs2 dw dv F) t u
      = bicubic dw dv ![![F 0 0, F 0 2], ![F 0 1, F 0 3]] ![![F 1 0, F 1 2], ![F 1 1, F 1 3]]
          ![![F 2 0, F 2 2], ![F 2 1, F 2 3]] ![![F 3 0, F 3 2], ![F 3 1, F 3 3]] t u := by
  rw [eval2_bas]
  simp only [bicubic, hermite_basis, ← bas_0 _ _ hw, ← bas_1 _ _ hw, ← bas_2 _ _ hw, ← bas_3 _ _ hw,
    ← bas_0 _ _ hv, ← bas_1 _ _ hv, ← bas_2 _ _ hv, ← bas_3 _ _ hv]
  simp [Fin.sum_univ_four, dx2, dy2]
  module

theorem eval3_tricubic (dw dv dvp : K) (hw : dw ≠ 0) (hv : dv ≠ 0) (hp : dvp ≠ 0) (F : Fin 8 → Fin 8 → W)
    (G : Fin 8 → Fin 2 → Fin 2 → Fin 2 → W)
    (hG : ∀ d, G d 0 0 0 = F d 0 ∧ G d 1 0 0 = F d 1 ∧ G d 0 1 0 = F d 2 ∧ G d 1 1 0 = F d 3 ∧
      G d 0 0 1 = F d 4 ∧ G d 1 0 1 = F d 5 ∧ G d 0 1 1 = F d 6 ∧ G d 1 1 1 = F d 7) (t u s : K) :
    eval3 (coeffs3 dw dv dvp F) t u s
      = tricubic dw dv dvp (G 0) (G 1) (G 2) (G 3) (G 4) (G 5) (G 6) (G 7) t u s := by
  rw [eval3_bas]
  have e : ∀ d, G d 0 0 0 = F d 0 := fun d => (hG d).1
  have e1 : ∀ d, G d 1 0 0 = F d 1 := fun d => (hG d).2.1
  have e2 : ∀ d, G d 0 1 0 = F d 2 := fun d => (hG d).2.2.1
  have e3 : ∀ d, G d 1 1 0 = F d 3 := fun d => (hG d).2.2.2.1
  have e4 : ∀ d, G d 0 0 1 = F d 4 := fun d => (hG d).2.2.2.2.1
  have e5 : ∀ d, G d 1 0 1 = F d 5 := fun d => (hG d).2.2.2.2.2.1
  have e6 : ∀ d, G d 0 1 1 = F d 6 := fun d => (hG d).2.2.2.2.2.2.1
  have e7 : ∀ d, G d 1 1 1 = F d 7 := fun d => (hG d).2.2.2.2.2.2.2
  simp only [tricubic, bicubic, hermite_basis, ← bas_0 _ _ hw, ← bas_1 _ _ hw, ← bas_2 _ _ hw, ← bas_3 _ _ hw,
    ← bas_0 _ _ hv, ← bas_1 _ _ hv, ← bas_2 _ _ hv, ← bas_3 _ _ hv,
    ← bas_0 _ _ hp, ← bas_1 _ _ hp, ← bas_2 _ _ hp, ← bas_3 _ _ hp, e, e1, e2, e3, e4, e5, e6, e7]
  simp [Fin.sum_univ_eight, dx3, dy3, dz3]
  module

end Verif.Spline
