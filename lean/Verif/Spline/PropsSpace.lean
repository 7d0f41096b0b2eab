import Verif.Spline.Props

/-! C120: three frequencies. -/
namespace Verif.Spline
open Verif Verif.Index

variable {K W : Type} [Field K] [AddCommGroup W] [Module K W]

theorem hermite_reproduces {p q : K} (h : p ≠ q) (g : Fin 4 → W) (t : K) :
    hermite (q - p) (cubic g p) (cubic g q) (cubic' g p) (cubic' g q) (t - p) = cubic g t := by
  have e : q = p + (q - p) := by ring
  have k := hermite_cubic (q - p) p (sub_ne_zero.2 (Ne.symm h)) g (t - p)
  rw [← e, show p + (t - p) = t by ring] at k
  exact k

/-- A polynomial that is cubic in each of three variables. -/
def cubic3 (c : Fin 4 → Fin 4 → Fin 4 → W) (t u s : K) : W := cubic (fun i => cubic (fun m => cubic (c i m) s) u) t

theorem bicubic_reproduces {p q p' q' : K} (h : p ≠ q) (h' : p' ≠ q') (d : Fin 4 → Fin 4 → W) (t u : K) (X Y : Fin 2 → K)
    (hX : X 0 = p ∧ X 1 = q) (hY : Y 0 = p' ∧ Y 1 = q') :
    bicubic (q - p) (q' - p') (fun a b => cubic (fun i => cubic (d i) (Y b)) (X a)) (fun a b => cubic' (fun i => cubic (d i) (Y b)) (X a))
      (fun a b => cubic (fun i => cubic' (d i) (Y b)) (X a)) (fun a b => cubic' (fun i => cubic' (d i) (Y b)) (X a)) (t - p) (u - p') =
      cubic (fun i => cubic (d i) u) t := by
  have sw : ∀ v : K, cubic (fun i => cubic (d i) v) t = cubic (fun i => cubic (fun m => d m i) t) v := by
    intro v; simp only [cubic]; module
  have sw' : ∀ v : K, cubic (fun i => cubic' (d i) v) t = cubic' (fun i => cubic (fun m => d m i) t) v := by
    intro v; simp only [cubic, cubic']; module
  simp only [bicubic, hX.1, hX.2, hY.1, hY.2, hermite_reproduces h]
  rw [sw, sw, sw', sw', hermite_reproduces h', ← sw]

variable {A B DA DB : List Nat} (hA : InRange A DA) (hB : InRange B DB)
include hA hB

/-- **C120** (three frequencies). -/
theorem c120_cubic_space_partial {nx ny nz j k l : Nat} (hj : j + 1 < nx) (hk : k + 1 < ny) (hl : l + 1 < nz) (x y z : Nat → K)
    (hx : x j ≠ x (j + 1)) (hy : y k ≠ y (k + 1)) (hz : z l ≠ z (l + 1)) (f fx fy fz fxy fxz fyz fxyz : Nat → W)
    (c : Fin 4 → Fin 4 → Fin 4 → W)
    (H : ∀ a < nx, ∀ b < ny, ∀ e < nz,
      let at' := fun (g : Nat → W) => g (rowMajor (A ++ [a, b, e] ++ B) (DA ++ [nx, ny, nz] ++ DB))
      at' f = cubic (fun i => cubic (fun m => cubic (c i m) (z e)) (y b)) (x a) ∧
      at' fx = cubic' (fun i => cubic (fun m => cubic (c i m) (z e)) (y b)) (x a) ∧
      at' fy = cubic (fun i => cubic' (fun m => cubic (c i m) (z e)) (y b)) (x a) ∧
      at' fz = cubic (fun i => cubic (fun m => cubic' (c i m) (z e)) (y b)) (x a) ∧
      at' fxy = cubic' (fun i => cubic' (fun m => cubic (c i m) (z e)) (y b)) (x a) ∧
      at' fxz = cubic' (fun i => cubic (fun m => cubic' (c i m) (z e)) (y b)) (x a) ∧
      at' fyz = cubic (fun i => cubic' (fun m => cubic' (c i m) (z e)) (y b)) (x a) ∧
      at' fxyz = cubic' (fun i => cubic' (fun m => cubic' (c i m) (z e)) (y b)) (x a)) (t u s : K) :
    let dims := DA ++ [nx, ny, nz] ++ DB
    interpolate3 true dims (A ++ [j, k, l] ++ B) DA.length x y z
        (table3 dims DA.length dims.prod nx ny nz x y z ![f, fx, fy, fz, fxy, fxz, fyz, fxyz]) t u s
      = .ok (cubic3 c t u s) := by
  intro dims
  refine (c119_space hA hB hj hk hl x y z hx hy hz f fx fy fz fxy fxz fyz fxyz t u s).trans ?_
  have E : ∀ a b e : Fin 2, _ := fun a b e => H (j + a) (by omega) (k + b) (by omega) (l + e) (by omega)
  have lowV := fun e : Fin 2 => bicubic_reproduces hx hy (fun i m => cubic (c i m) (z (l + e))) t u (fun a => x (j + a)) (fun b => y (k + b))
    ⟨rfl, rfl⟩ ⟨rfl, rfl⟩
  have lowD := fun e : Fin 2 => bicubic_reproduces hx hy (fun i m => cubic' (c i m) (z (l + e))) t u (fun a => x (j + a)) (fun b => y (k + b))
    ⟨rfl, rfl⟩ ⟨rfl, rfl⟩
  have sw : ∀ v : K, cubic (fun i => cubic (fun m => cubic (c i m) v) u) t = cubic (fun n => cubic (fun i => cubic (fun m => c i m n) u) t) v := by
    intro v; simp only [cubic]; module
  have sw' : ∀ v : K, cubic (fun i => cubic (fun m => cubic' (c i m) v) u) t = cubic' (fun n => cubic (fun i => cubic (fun m => c i m n) u) t) v := by
    intro v; simp only [cubic, cubic']; module
  refine congrArg Except.ok ?_
  simp only [tricubic]
  rw [show (fun (a b : Fin 2) => f (rowMajor (A ++ [j + a, k + b, l + (0 : Fin 2)] ++ B) dims)) = _ from funext fun a => funext fun b => (E a b 0).1,
    show (fun (a b : Fin 2) => fx (rowMajor (A ++ [j + a, k + b, l + (0 : Fin 2)] ++ B) dims)) = _ from funext fun a => funext fun b => (E a b 0).2.1,
    show (fun (a b : Fin 2) => fy (rowMajor (A ++ [j + a, k + b, l + (0 : Fin 2)] ++ B) dims)) = _ from funext fun a => funext fun b => (E a b 0).2.2.1,
    show (fun (a b : Fin 2) => fz (rowMajor (A ++ [j + a, k + b, l + (0 : Fin 2)] ++ B) dims)) = _ from funext fun a => funext fun b => (E a b 0).2.2.2.1,
    show (fun (a b : Fin 2) => fxy (rowMajor (A ++ [j + a, k + b, l + (0 : Fin 2)] ++ B) dims)) = _ from funext fun a => funext fun b => (E a b 0).2.2.2.2.1,
    show (fun (a b : Fin 2) => fxz (rowMajor (A ++ [j + a, k + b, l + (0 : Fin 2)] ++ B) dims)) = _ from funext fun a => funext fun b => (E a b 0).2.2.2.2.2.1,
    show (fun (a b : Fin 2) => fyz (rowMajor (A ++ [j + a, k + b, l + (0 : Fin 2)] ++ B) dims)) = _ from funext fun a => funext fun b => (E a b 0).2.2.2.2.2.2.1,
    show (fun (a b : Fin 2) => fxyz (rowMajor (A ++ [j + a, k + b, l + (0 : Fin 2)] ++ B) dims)) = _ from funext fun a => funext fun b => (E a b 0).2.2.2.2.2.2.2,
    show (fun (a b : Fin 2) => f (rowMajor (A ++ [j + a, k + b, l + (1 : Fin 2)] ++ B) dims)) = _ from funext fun a => funext fun b => (E a b 1).1,
    show (fun (a b : Fin 2) => fx (rowMajor (A ++ [j + a, k + b, l + (1 : Fin 2)] ++ B) dims)) = _ from funext fun a => funext fun b => (E a b 1).2.1,
    show (fun (a b : Fin 2) => fy (rowMajor (A ++ [j + a, k + b, l + (1 : Fin 2)] ++ B) dims)) = _ from funext fun a => funext fun b => (E a b 1).2.2.1,
    show (fun (a b : Fin 2) => fz (rowMajor (A ++ [j + a, k + b, l + (1 : Fin 2)] ++ B) dims)) = _ from funext fun a => funext fun b => (E a b 1).2.2.2.1,
    show (fun (a b : Fin 2) => fxy (rowMajor (A ++ [j + a, k + b, l + (1 : Fin 2)] ++ B) dims)) = _ from funext fun a => funext fun b => (E a b 1).2.2.2.2.1,
    show (fun (a b : Fin 2) => fxz (rowMajor (A ++ [j + a, k + b, l + (1 : Fin 2)] ++ B) dims)) = _ from funext fun a => funext fun b => (E a b 1).2.2.2.2.2.1,
    show (fun (a b : Fin 2) => fyz (rowMajor (A ++ [j + a, k + b, l + (1 : Fin 2)] ++ B) dims)) = _ from funext fun a => funext fun b => (E a b 1).2.2.2.2.2.2.1,
    show (fun (a b : Fin 2) => fxyz (rowMajor (A ++ [j + a, k + b, l + (1 : Fin 2)] ++ B) dims)) = _ from funext fun a => funext fun b => (E a b 1).2.2.2.2.2.2.2]
  rw [lowV 0, lowV 1, lowD 0, lowD 1, sw, sw, sw', sw']
  exact (hermite_reproduces hz _ s).trans (sw s).symm

omit hA hB in
-- the product of the three coordinates on the corners of the unit cube
example (t u s : ℚ) :
    let bit := fun (n p : Nat) => ((p / n % 2 : Nat) : ℚ)
    interpolate3 true [2, 2, 2] [0, 0, 0] 0 (fun a => (a : ℚ)) (fun a => (a : ℚ)) (fun a => (a : ℚ))
      (table3 [2, 2, 2] 0 8 2 2 2 (fun a => (a : ℚ)) (fun a => (a : ℚ)) (fun a => (a : ℚ))
        ![fun p => bit 4 p * bit 2 p * bit 1 p, fun p => bit 2 p * bit 1 p, fun p => bit 4 p * bit 1 p, fun p => bit 4 p * bit 2 p,
          fun p => bit 1 p, fun p => bit 2 p, fun p => bit 4 p, fun _ => 1]) t u s = .ok (t * u * s) := by
  intro bit
  have two : (2 : Fin 4) ≠ 1 := by decide
  have three : (3 : Fin 4) ≠ 1 := by decide
  have h := c120_cubic_space_partial (K := ℚ) (A := []) (B := []) (DA := []) (DB := []) (by simp [InRange]) (by simp [InRange])
    (nx := 2) (ny := 2) (nz := 2) (j := 0) (k := 0) (l := 0) (by norm_num) (by norm_num) (by norm_num)
    (fun a => (a : ℚ)) (fun a => (a : ℚ)) (fun a => (a : ℚ)) (by norm_num) (by norm_num) (by norm_num)
    (fun p => bit 4 p * bit 2 p * bit 1 p) (fun p => bit 2 p * bit 1 p) (fun p => bit 4 p * bit 1 p) (fun p => bit 4 p * bit 2 p)
    (fun p => bit 1 p) (fun p => bit 2 p) (fun p => bit 4 p) (fun _ => 1)
    (fun i m n => if i = 1 ∧ m = 1 ∧ n = 1 then 1 else 0)
    (by intro a ha b hb e he; interval_cases a <;> interval_cases b <;> interval_cases e <;> norm_num [bit, cubic, cubic', rowMajor, two, three]) t u s
  refine h.trans (congrArg Except.ok ?_)
  simp [cubic3, cubic, two, three]
  ring

end Verif.Spline
