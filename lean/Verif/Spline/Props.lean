import Verif.Spline.Arrays
import Verif.FinDiff.Model
import Mathlib.Analysis.Calculus.Deriv.Pow
import Mathlib.Analysis.Calculus.Deriv.Add
import Mathlib.Analysis.Calculus.Deriv.Mul
import Mathlib.Tactic.NormNum
import Mathlib.Tactic.IntervalCases
import Mathlib.Tactic.Linarith

namespace Verif.Spline
open Verif Verif.Index

variable {K W : Type} [Field K] [AddCommGroup W] [Module K W]

/-! ### The cubic of one cell -/

/-- **C119** (the cubic). For any values and slopes at the ends of a cell of width `h` there is exactly one cubic
polynomial with these values and slopes, and `hermite` evaluates it. -/
theorem c119_hermite (h : K) (hh : h ≠ 0) (f0 f1 b0 b1 : W) :
    (∃ c : Fin 4 → W, cubic c (0 : K) = f0 ∧ cubic c h = f1 ∧ cubic' c (0 : K) = b0 ∧ cubic' c h = b1) ∧
    ∀ c : Fin 4 → W, cubic c (0 : K) = f0 → cubic c h = f1 → cubic' c (0 : K) = b0 → cubic' c h = b1 →
      ∀ t : K, hermite h f0 f1 b0 b1 t = cubic c t := by
  constructor
  · refine ⟨![f0, b0, (-3 / h ^ 2) • f0 + (3 / h ^ 2) • f1 + (-2 / h) • b0 + (-1 / h) • b1,
      (2 / h ^ 3) • f0 + (-2 / h ^ 3) • f1 + (1 / h ^ 2) • b0 + (1 / h ^ 2) • b1], ?_, ?_, ?_, ?_⟩
    · simp [cubic]
    · simp only [cubic, Matrix.cons_val]
      match_scalars <;> field_simp <;> ring
    · simp [cubic']
    · simp only [cubic', Matrix.cons_val]
      match_scalars <;> field_simp <;> ring
  · rintro c rfl rfl rfl rfl t
    obtain ⟨s, rfl⟩ : ∃ s, t = s * h := ⟨t / h, by field_simp⟩
    simp only [hermite, cubic, cubic', mul_div_assoc, div_self hh, mul_one]
    module

/-- `cubic'` is the derivative of `cubic`. -/
theorem c119_slope {E : Type} [NormedAddCommGroup E] [NormedSpace ℝ E] (c : Fin 4 → E) (t : ℝ) :
    HasDerivAt (fun t : ℝ => cubic c t) (cubic' c t) t := by
  have h1 : HasDerivAt (fun t : ℝ => t • c 1) (c 1) t := by simpa using (hasDerivAt_id t).smul_const (c 1)
  have h2 : HasDerivAt (fun t : ℝ => t ^ 2 • c 2) ((2 * t) • c 2) t := by
    simpa using (hasDerivAt_pow 2 t).smul_const (c 2)
  have h3 : HasDerivAt (fun t : ℝ => t ^ 3 • c 3) ((3 * t ^ 2) • c 3) t := by
    simpa using (hasDerivAt_pow 3 t).smul_const (c 3)
  have := ((h1.const_add (c 0)).add h2).add h3
  exact this

theorem hermite_zero (h : K) (f0 f1 b0 b1 : W) : hermite h f0 f1 b0 b1 0 = f0 := by simp [hermite]

theorem hermite_end (h : K) (hh : h ≠ 0) (f0 f1 b0 b1 : W) : hermite h f0 f1 b0 b1 h = f1 := by
  simp only [hermite, div_self hh]; module

theorem hermite_cubic (h a : K) (hh : h ≠ 0) (c : Fin 4 → W) (t : K) :
    hermite h (cubic c a) (cubic c (a + h)) (cubic' c a) (cubic' c (a + h)) t = cubic c (a + t) := by
  obtain ⟨s, rfl⟩ : ∃ s, t = s * h := ⟨t / h, by field_simp⟩
  simp only [hermite, cubic, cubic', mul_div_assoc, div_self hh, mul_one]
  module

/-! ### Interpolation of arrays -/

section arrays
variable {A B DA DB : List Nat} (hA : InRange A DA) (hB : InRange B DB)
include hA hB

/-- **C119** (one frequency). For an array with one frequency axis of `nx` points at any position among other axes, and
every cell `[x j, x (j+1)]`, the spline is the Hermite interpolation of the data and slopes at the two ends of the cell,
for the other indices kept fixed. -/
theorem c119_line {nx j : Nat} (hrank : 1 ≤ DA.length + DB.length) (hj : j + 1 < nx) (x : Nat → K)
    (hx : x j ≠ x (j + 1)) (f b : Nat → W) (t : K) :
    let dims := DA ++ [nx] ++ DB
    let p := fun a => rowMajor (A ++ [a] ++ B) dims
    interpolate1 true dims (A ++ [j] ++ B) DA.length x (table1 dims DA.length dims.prod nx x f b) t
      = .ok (hermite (x (j + 1) - x j) (f (p j)) (f (p (j + 1))) (b (p j)) (b (p (j + 1))) (t - x j)) := by
  intro dims p
  have hin : InRange (A ++ [j] ++ B) dims :=
    List.rel_append (List.rel_append hA (by simpa using (by omega : j < nx))) hB
  have hr := rowAt_some _ _ _ _ hin (by simp only [dims, List.length_append, List.length_singleton]; omega)
    (table1_some hA hB hj x f b)
  have hg : (A ++ [j] ++ B).getD DA.length 0 = j := by
    rw [← hA.length_eq]; simp [List.getD]
  unfold interpolate1
  simp only [Bool.not_true, Bool.false_eq_true, if_false, hg]
  rw [hr]
  show Except.ok _ = _
  rw [eval1_bas _ _ (sub_ne_zero.2 (Ne.symm hx))]
  rfl

/-- **C119** (two frequencies). -/
theorem c119_plane {nx ny j k : Nat} (hj : j + 1 < nx) (hk : k + 1 < ny) (x y : Nat → K) (hx : x j ≠ x (j + 1))
    (hy : y k ≠ y (k + 1)) (f fx fy fxy : Nat → W) (t u : K) :
    let dims := DA ++ [nx, ny] ++ DB
    let at' := fun (g : Nat → W) (a b : Fin 2) => g (rowMajor (A ++ [j + a, k + b] ++ B) dims)
    interpolate2 true dims (A ++ [j, k] ++ B) DA.length x y
        (table2 dims DA.length dims.prod nx ny x y ![f, fx, fy, fxy]) t u
      = .ok (bicubic (x (j + 1) - x j) (y (k + 1) - y k) (at' f) (at' fx) (at' fy) (at' fxy) (t - x j) (u - y k)) := by
  intro dims at'
  have hin : InRange (A ++ [j, k] ++ B) dims :=
    List.rel_append (List.rel_append hA (by simp [(by omega : j < nx), (by omega : k < ny)])) hB
  have hr := rowAt_some _ _ _ _ hin (by simp only [dims, List.length_append, List.length_cons]; omega)
    (table2_some hA hB hj hk x y ![f, fx, fy, fxy])
  have hg : (A ++ [j, k] ++ B).getD DA.length 0 = j := by
    rw [← hA.length_eq]; simp [List.getD]
  have hg2 : (A ++ [j, k] ++ B).getD (DA.length + 1) 0 = k := by
    rw [← hA.length_eq]; simp [List.getD, List.getElem?_append_right]
  unfold interpolate2
  simp only [Bool.not_true, Bool.false_eq_true, if_false, hg, hg2]
  rw [hr]
  show Except.ok _ = _
  rw [eval2_bicubic _ _ (sub_ne_zero.2 (Ne.symm hx)) (sub_ne_zero.2 (Ne.symm hy))]
  rfl

/-- **C119** (three frequencies). -/
theorem c119_space {nx ny nz j k l : Nat} (hj : j + 1 < nx) (hk : k + 1 < ny) (hl : l + 1 < nz) (x y z : Nat → K)
    (hx : x j ≠ x (j + 1)) (hy : y k ≠ y (k + 1)) (hz : z l ≠ z (l + 1)) (f fx fy fz fxy fxz fyz fxyz : Nat → W)
    (t u s : K) :
    let dims := DA ++ [nx, ny, nz] ++ DB
    let at' := fun (g : Nat → W) (a b c : Fin 2) => g (rowMajor (A ++ [j + a, k + b, l + c] ++ B) dims)
    interpolate3 true dims (A ++ [j, k, l] ++ B) DA.length x y z
        (table3 dims DA.length dims.prod nx ny nz x y z ![f, fx, fy, fz, fxy, fxz, fyz, fxyz]) t u s
      = .ok (tricubic (x (j + 1) - x j) (y (k + 1) - y k) (z (l + 1) - z l) (at' f) (at' fx) (at' fy) (at' fz)
          (at' fxy) (at' fxz) (at' fyz) (at' fxyz) (t - x j) (u - y k) (s - z l)) := by
  intro dims at'
  have hin : InRange (A ++ [j, k, l] ++ B) dims :=
    List.rel_append (List.rel_append hA
      (by simp [(by omega : j < nx), (by omega : k < ny), (by omega : l < nz)])) hB
  have hr := rowAt_some _ _ _ _ hin (by simp only [dims, List.length_append, List.length_cons]; omega)
    (table3_some hA hB hj hk hl x y z ![f, fx, fy, fz, fxy, fxz, fyz, fxyz])
  have hg : (A ++ [j, k, l] ++ B).getD DA.length 0 = j := by
    rw [← hA.length_eq]; simp [List.getD]
  have hg2 : (A ++ [j, k, l] ++ B).getD (DA.length + 1) 0 = k := by
    rw [← hA.length_eq]; simp [List.getD, List.getElem?_append_right]
  have hg3 : (A ++ [j, k, l] ++ B).getD (DA.length + 2) 0 = l := by
    rw [← hA.length_eq]; simp [List.getD, List.getElem?_append_right]
  unfold interpolate3
  simp only [Bool.not_true, Bool.false_eq_true, if_false, hg, hg2, hg3]
  rw [hr]
  show Except.ok _ = _
  rw [eval3_tricubic _ _ _ (sub_ne_zero.2 (Ne.symm hx)) (sub_ne_zero.2 (Ne.symm hy)) (sub_ne_zero.2 (Ne.symm hz)) _
    (fun d => at' ((![f, fx, fy, fz, fxy, fxz, fyz, fxyz] : Fin 8 → Nat → W) d))]
  · rfl
  · intro d
    exact ⟨rfl, rfl, rfl, rfl, rfl, rfl, rfl, rfl⟩

/-- **C119** (grid points and joins, one frequency). At both ends of a cell the data are returned; so the cells fit
together. -/
theorem c119_nodes_line {nx j : Nat} (hrank : 1 ≤ DA.length + DB.length) (hj : j + 1 < nx) (x : Nat → K)
    (hx : x j ≠ x (j + 1)) (f b : Nat → W) :
    let dims := DA ++ [nx] ++ DB
    let p := fun a => rowMajor (A ++ [a] ++ B) dims
    let spline := interpolate1 true dims (A ++ [j] ++ B) DA.length x (table1 dims DA.length dims.prod nx x f b)
    spline (x j) = .ok (f (p j)) ∧ spline (x (j + 1)) = .ok (f (p (j + 1))) := by
  intro dims p spline
  have h := fun t => c119_line (K := K) hA hB hrank hj x hx f b t
  refine ⟨(h _).trans ?_, (h _).trans ?_⟩
  · rw [sub_self, hermite_zero]
  · rw [hermite_end _ (sub_ne_zero.2 (Ne.symm hx))]

/-- **C119** (grid points, two frequencies). -/
theorem c119_nodes_plane {nx ny j k : Nat} (hj : j + 1 < nx) (hk : k + 1 < ny) (x y : Nat → K) (hx : x j ≠ x (j + 1))
    (hy : y k ≠ y (k + 1)) (f fx fy fxy : Nat → W) (a b : Fin 2) :
    let dims := DA ++ [nx, ny] ++ DB
    interpolate2 true dims (A ++ [j, k] ++ B) DA.length x y
        (table2 dims DA.length dims.prod nx ny x y ![f, fx, fy, fxy]) (x (j + a)) (y (k + b))
      = .ok (f (rowMajor (A ++ [j + a, k + b] ++ B) dims)) := by
  intro dims
  refine (c119_plane hA hB hj hk x y hx hy f fx fy fxy _ _).trans ?_
  have hx' := sub_ne_zero.2 (Ne.symm hx)
  have hy' := sub_ne_zero.2 (Ne.symm hy)
  fin_cases a <;> fin_cases b <;> simp [bicubic, hermite_zero, hermite_end _ hx', hermite_end _ hy', dims]

/-- **C119** (grid points, three frequencies). -/
theorem c119_nodes_space {nx ny nz j k l : Nat} (hj : j + 1 < nx) (hk : k + 1 < ny) (hl : l + 1 < nz) (x y z : Nat → K)
    (hx : x j ≠ x (j + 1)) (hy : y k ≠ y (k + 1)) (hz : z l ≠ z (l + 1)) (f fx fy fz fxy fxz fyz fxyz : Nat → W)
    (a b c : Fin 2) :
    let dims := DA ++ [nx, ny, nz] ++ DB
    interpolate3 true dims (A ++ [j, k, l] ++ B) DA.length x y z
        (table3 dims DA.length dims.prod nx ny nz x y z ![f, fx, fy, fz, fxy, fxz, fyz, fxyz])
        (x (j + a)) (y (k + b)) (z (l + c))
      = .ok (f (rowMajor (A ++ [j + a, k + b, l + c] ++ B) dims)) := by
  intro dims
  refine (c119_space hA hB hj hk hl x y z hx hy hz f fx fy fz fxy fxz fyz fxyz _ _ _).trans ?_
  have hx' := sub_ne_zero.2 (Ne.symm hx)
  have hy' := sub_ne_zero.2 (Ne.symm hy)
  have hz' := sub_ne_zero.2 (Ne.symm hz)
  fin_cases a <;> fin_cases b <;> fin_cases c <;>
    simp [tricubic, bicubic, hermite_zero, hermite_end _ hx', hermite_end _ hy', hermite_end _ hz', dims]

/-- **C119** (edges, two frequencies). Neighbouring cells agree along their whole common edge, in both directions. -/
theorem c119_edges {nx ny j k : Nat} (hj : j + 2 < nx) (hk : k + 2 < ny) (x y : Nat → K)
    (hx : ∀ i, x i ≠ x (i + 1)) (hy : ∀ i, y i ≠ y (i + 1)) (F : Fin 4 → Nat → W) (t u : K) :
    let dims := DA ++ [nx, ny] ++ DB
    let spline := fun (a b : Nat) => interpolate2 true dims (A ++ [a, b] ++ B) DA.length x y
      (table2 dims DA.length dims.prod nx ny x y F)
    spline j k (x (j + 1)) u = spline (j + 1) k (x (j + 1)) u ∧
    spline j k t (y (k + 1)) = spline j (k + 1) t (y (k + 1)) := by
  intro dims spline
  have hF : F = ![F 0, F 1, F 2, F 3] := by
    funext d; fin_cases d <;> rfl
  have h := fun (a b : Nat) (ha : a + 1 < nx) (hb : b + 1 < ny) (t u : K) =>
    c119_plane hA hB ha hb x y (hx a) (hy b) (F 0) (F 1) (F 2) (F 3) t u
  rw [← hF] at h
  have hx' := sub_ne_zero.2 (Ne.symm (hx j))
  have hy' := sub_ne_zero.2 (Ne.symm (hy k))
  constructor
  · refine (h j k (by omega) (by omega) _ _).trans ((?_ : _ = _).trans (h (j + 1) k (by omega) (by omega) _ _).symm)
    simp [bicubic, hermite_zero, hermite_end _ hx']
  · refine (h j k (by omega) (by omega) _ _).trans ((?_ : _ = _).trans (h j (k + 1) (by omega) (by omega) _ _).symm)
    simp [bicubic, hermite_zero, hermite_end _ hy']

/-- **C119** (faces, three frequencies). Neighbouring cells agree on their whole common face, in all directions. -/
theorem c119_faces {nx ny nz j k l : Nat} (hj : j + 2 < nx) (hk : k + 2 < ny) (hl : l + 2 < nz) (x y z : Nat → K)
    (hx : ∀ i, x i ≠ x (i + 1)) (hy : ∀ i, y i ≠ y (i + 1)) (hz : ∀ i, z i ≠ z (i + 1)) (F : Fin 8 → Nat → W)
    (t u s : K) :
    let dims := DA ++ [nx, ny, nz] ++ DB
    let spline := fun (a b c : Nat) => interpolate3 true dims (A ++ [a, b, c] ++ B) DA.length x y z
      (table3 dims DA.length dims.prod nx ny nz x y z F)
    spline j k l (x (j + 1)) u s = spline (j + 1) k l (x (j + 1)) u s ∧
    spline j k l t (y (k + 1)) s = spline j (k + 1) l t (y (k + 1)) s ∧
    spline j k l t u (z (l + 1)) = spline j k (l + 1) t u (z (l + 1)) := by
  intro dims spline
  have hF : F = ![F 0, F 1, F 2, F 3, F 4, F 5, F 6, F 7] := by
    funext d; fin_cases d <;> rfl
  have h := fun (a b c : Nat) (ha : a + 1 < nx) (hb : b + 1 < ny) (hc : c + 1 < nz) (t u s : K) =>
    c119_space hA hB ha hb hc x y z (hx a) (hy b) (hz c) (F 0) (F 1) (F 2) (F 3) (F 4) (F 5) (F 6) (F 7) t u s
  rw [← hF] at h
  have hx' := sub_ne_zero.2 (Ne.symm (hx j))
  have hy' := sub_ne_zero.2 (Ne.symm (hy k))
  have hz' := sub_ne_zero.2 (Ne.symm (hz l))
  refine ⟨?_, ?_, ?_⟩
  · refine (h j k l (by omega) (by omega) (by omega) _ _ _).trans
      ((?_ : _ = _).trans (h (j + 1) k l (by omega) (by omega) (by omega) _ _ _).symm)
    simp [tricubic, bicubic, hermite_zero, hermite_end _ hx']
  · refine (h j k l (by omega) (by omega) (by omega) _ _ _).trans
      ((?_ : _ = _).trans (h j (k + 1) l (by omega) (by omega) (by omega) _ _ _).symm)
    simp [tricubic, bicubic, hermite_zero, hermite_end _ hy']
  · refine (h j k l (by omega) (by omega) (by omega) _ _ _).trans
      ((?_ : _ = _).trans (h j k (l + 1) (by omega) (by omega) (by omega) _ _ _).symm)
    simp [tricubic, bicubic, hermite_zero, hermite_end _ hz']

/-- **C119** (last grid point). The row of the last grid point is never computed: a look-up there reads uninitialised
memory. -/
theorem c119_last_row {nx : Nat} (hrank : 1 ≤ DA.length + DB.length) (hn : 0 < nx) (x : Nat → K) (f b : Nat → W) (t : K) :
    let dims := DA ++ [nx] ++ DB
    interpolate1 true dims (A ++ [nx - 1] ++ B) DA.length x (table1 dims DA.length dims.prod nx x f b) t
      = .error .undefined := by
  intro dims
  have hin : InRange (A ++ [nx - 1] ++ B) dims :=
    List.rel_append (List.rel_append hA (by simpa using (by omega : 0 < nx))) hB
  unfold interpolate1 rowAt
  rw [getFlatIndex_eq _ _ hin.length_eq (by simp only [dims, List.length_append, List.length_singleton]; omega)]
  simp only [Bool.not_true, Bool.false_eq_true, if_false, dims, table1_last hA hB hn x f b]
  rfl

/-- **C120** (one frequency). If the slopes handed to the spline are those of a cubic polynomial in the auxiliary
coordinate, the polynomial is reproduced exactly. -/
theorem c120_cubic_line_partial {nx j : Nat} (hrank : 1 ≤ DA.length + DB.length) (hj : j + 1 < nx) (x : Nat → K)
    (hx : x j ≠ x (j + 1)) (f b : Nat → W) (c : Fin 4 → W)
    (hf : ∀ a < nx, f (rowMajor (A ++ [a] ++ B) (DA ++ [nx] ++ DB)) = cubic c (x a))
    (hb : ∀ a < nx, b (rowMajor (A ++ [a] ++ B) (DA ++ [nx] ++ DB)) = cubic' c (x a)) (t : K) :
    let dims := DA ++ [nx] ++ DB
    interpolate1 true dims (A ++ [j] ++ B) DA.length x (table1 dims DA.length dims.prod nx x f b) t
      = .ok (cubic c t) := by
  intro dims
  refine (c119_line hA hB hrank hj x hx f b t).trans ?_
  have e : x (j + 1) = x j + (x (j + 1) - x j) := by ring
  simp only
  rw [hf j (by omega), hf (j + 1) (by omega), hb j (by omega), hb (j + 1) (by omega)]
  conv_lhs => rw [show cubic c (x (j + 1)) = cubic c (x j + (x (j + 1) - x j)) by rw [← e],
    show cubic' c (x (j + 1)) = cubic' c (x j + (x (j + 1) - x j)) by rw [← e],
    hermite_cubic _ _ (sub_ne_zero.2 (Ne.symm hx))]
  rw [show x j + (t - x j) = t by ring]

/-- **C120** (two frequencies). -/
theorem c120_cubic_plane_partial {nx ny j k : Nat} (hj : j + 1 < nx) (hk : k + 1 < ny) (x y : Nat → K)
    (hx : x j ≠ x (j + 1)) (hy : y k ≠ y (k + 1)) (f fx fy fxy : Nat → W) (c : Fin 4 → Fin 4 → W)
    (hf : ∀ a < nx, ∀ b < ny, f (rowMajor (A ++ [a, b] ++ B) (DA ++ [nx, ny] ++ DB))
      = cubic (fun i => cubic (c i) (y b)) (x a))
    (hfx : ∀ a < nx, ∀ b < ny, fx (rowMajor (A ++ [a, b] ++ B) (DA ++ [nx, ny] ++ DB))
      = cubic' (fun i => cubic (c i) (y b)) (x a))
    (hfy : ∀ a < nx, ∀ b < ny, fy (rowMajor (A ++ [a, b] ++ B) (DA ++ [nx, ny] ++ DB))
      = cubic (fun i => cubic' (c i) (y b)) (x a))
    (hfxy : ∀ a < nx, ∀ b < ny, fxy (rowMajor (A ++ [a, b] ++ B) (DA ++ [nx, ny] ++ DB))
      = cubic' (fun i => cubic' (c i) (y b)) (x a)) (t u : K) :
    let dims := DA ++ [nx, ny] ++ DB
    interpolate2 true dims (A ++ [j, k] ++ B) DA.length x y
        (table2 dims DA.length dims.prod nx ny x y ![f, fx, fy, fxy]) t u
      = .ok (cubic (fun i => cubic (c i) u) t) := by
  intro dims
  refine (c119_plane hA hB hj hk x y hx hy f fx fy fxy t u).trans ?_
  have hx' := sub_ne_zero.2 (Ne.symm hx)
  have hy' := sub_ne_zero.2 (Ne.symm hy)
  have ex : x (j + 1) = x j + (x (j + 1) - x j) := by ring
  have hc : ∀ g : Fin 4 → W, hermite (x (j + 1) - x j) (cubic g (x j)) (cubic g (x (j + 1))) (cubic' g (x j))
      (cubic' g (x (j + 1))) (t - x j) = cubic g t := by
    intro g
    conv_lhs => rw [show cubic g (x (j + 1)) = cubic g (x j + (x (j + 1) - x j)) by rw [← ex],
      show cubic' g (x (j + 1)) = cubic' g (x j + (x (j + 1) - x j)) by rw [← ex], hermite_cubic _ _ hx']
    rw [show x j + (t - x j) = t by ring]
  have hcy : ∀ g : Fin 4 → W, hermite (y (k + 1) - y k) (cubic g (y k)) (cubic g (y (k + 1))) (cubic' g (y k))
      (cubic' g (y (k + 1))) (u - y k) = cubic g u := by
    intro g
    conv_lhs => rw [show cubic g (y (k + 1)) = cubic g (y k + (y (k + 1) - y k)) by congr 1; ring,
      show cubic' g (y (k + 1)) = cubic' g (y k + (y (k + 1) - y k)) by congr 1; ring, hermite_cubic _ _ hy']
    rw [show y k + (u - y k) = u by ring]
  have sw : ∀ v : K, cubic (fun i => cubic (c i) v) t = cubic (fun i => cubic (fun m => c m i) t) v := by
    intro v; simp only [cubic]; module
  have sw' : ∀ v : K, cubic (fun i => cubic' (c i) v) t = cubic' (fun i => cubic (fun m => c m i) t) v := by
    intro v; simp only [cubic, cubic']; module
  have j0 : j < nx := by omega
  have k0 : k < ny := by omega
  simp only [bicubic, Fin.val_zero, Fin.val_one, Nat.add_zero, hf _ j0 _ k0, hf _ hj _ k0, hf _ j0 _ hk, hf _ hj _ hk,
    hfx _ j0 _ k0, hfx _ hj _ k0, hfx _ j0 _ hk, hfx _ hj _ hk, hfy _ j0 _ k0, hfy _ hj _ k0, hfy _ j0 _ hk, hfy _ hj _ hk,
    hfxy _ j0 _ k0, hfxy _ hj _ k0, hfxy _ j0 _ hk, hfxy _ hj _ hk, hc, sw, sw', hcy]

end arrays

/-- **C119** (not initialised). Without `initInterpolator` every evaluation stops with a failed assertion. -/
theorem c119_uninitialised (dims indx : List Nat) (pos : Nat) (x y z : Nat → K) (t1 : Nat → Option (Nat → W))
    (t2 : Nat → Option (Nat → Nat → W)) (t3 : Nat → Option (Nat → Nat → Nat → W)) (t u s : K) :
    interpolate1 false dims indx pos x t1 t = .error .assertion ∧
    interpolate2 false dims indx pos x y t2 t u = .error .assertion ∧
    interpolate3 false dims indx pos x y z t3 t u s = .error .assertion := ⟨rfl, rfl, rfl⟩

/-- The hypotheses of C119 are met: an array of shape 2 × 3 × 2 with frequencies in the middle. -/
example : interpolate1 true [2, 3, 2] [1, 1, 0] 1 (fun k => (k : ℚ)) (table1 [2, 3, 2] 1 12 3 (fun k => (k : ℚ))
    (fun p => (p : ℚ)) (fun _ => 2)) (3 / 2) = .ok (9 : ℚ) := by
  refine (c119_line (A := [1]) (B := [0]) (DA := [2]) (DB := [2]) (nx := 3) (j := 1) (by simp [InRange])
    (by simp [InRange]) (by simp) (by omega) (fun k => (k : ℚ)) (by norm_num) (fun p => (p : ℚ)) (fun _ => 2) _).trans ?_
  simp [rowMajor, hermite]
  norm_num

/-- **C120** refuted for the derivatives the code supplies: `get_deriv_x` differentiates with respect to the number of
the grid point, not the auxiliary coordinate. Already a linear function on an equidistant auxiliary grid of spacing 1/2
is not reproduced. -/
theorem c120_refuted :
    ∃ (x : Nat → ℚ) (data : List ℚ) (slopes : MultiArray.MArr ℚ) (t : ℚ), (∀ k, x k < x (k + 1)) ∧
      (∀ k < 3, data.getD k 0 = x k) ∧ x 0 < t ∧ t < x 1 ∧
      FinDiff.partialDerivArr ℚ ⟨[1, 3], MultiArray.cumulLength [1, 3], data⟩ 1 = .ok slopes ∧
      interpolate1 true [1, 3] [0, 0] 1 x
        (table1 [1, 3] 1 3 3 x (fun p => data.getD p 0) (fun p => slopes.elems.getD p 0)) t ≠ .ok t := by
  refine ⟨fun k => k / 2, [0, 1 / 2, 1], ⟨[1, 3], [3, 1], [1 / 2, 1 / 2, 1 / 2]⟩, 1 / 8, ?_, ?_, by norm_num, by norm_num,
    ?_, ?_⟩
  · intro k; push_cast; linarith
  · intro k hk
    interval_cases k <;> norm_num
  · have hr : List.range 3 = [0, 1, 2] := rfl
    simp [FinDiff.partialDerivArr, MultiArray.cumulLength, hr, FinDiff.rd, bind, Except.bind, pure, Except.pure]
    norm_num
  · intro h
    have := (c119_line (K := ℚ) (A := [0]) (B := []) (DA := [1]) (DB := []) (nx := 3) (j := 0) (by simp [InRange])
      (by simp [InRange]) (by simp) (by omega) (fun k => (k : ℚ) / 2) (by norm_num)
      (fun p => ([0, 1 / 2, 1] : List ℚ).getD p 0) (fun p => ([1 / 2, 1 / 2, 1 / 2] : List ℚ).getD p 0) (1 / 8))
    simp only [List.append_nil, List.cons_append, List.nil_append] at this
    have e := h.symm.trans this
    simp [rowMajor, hermite] at e
    norm_num at e

end Verif.Spline
