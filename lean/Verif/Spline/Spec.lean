import Mathlib.Algebra.Module.Defs
import Mathlib.Algebra.Field.Defs

/-
Vocabulary for the spline properties: the cubic through two points with given slopes, and its products in two and three
directions.
-/
namespace Verif.Spline

variable {K W : Type} [Field K] [AddCommGroup W] [Module K W]

/-- A cubic polynomial. -/
def cubic (c : Fin 4 → W) (t : K) : W := c 0 + t • c 1 + t ^ 2 • c 2 + t ^ 3 • c 3

/-- Its derivative. -/
def cubic' (c : Fin 4 → W) (t : K) : W := c 1 + (2 * t) • c 2 + (3 * t ^ 2) • c 3

/-- Hermite interpolation on `[0, h]`: values `f0`, `f1` and slopes `b0`, `b1` at the ends. -/
def hermite (h : K) (f0 f1 b0 b1 : W) (t : K) : W :=
  let s := t / h
  (1 - 3 * s ^ 2 + 2 * s ^ 3) • f0 + (3 * s ^ 2 - 2 * s ^ 3) • f1
    + (h * (s - 2 * s ^ 2 + s ^ 3)) • b0 + (h * (s ^ 3 - s ^ 2)) • b1

/-- Bicubic interpolation: first in `x`, then in `y`; `g`, `gx`, `gy`, `gxy` at the corners. -/
def bicubic (hx hy : K) (g gx gy gxy : Fin 2 → Fin 2 → W) (t u : K) : W :=
  hermite hy
    (hermite hx (g 0 0) (g 1 0) (gx 0 0) (gx 1 0) t) (hermite hx (g 0 1) (g 1 1) (gx 0 1) (gx 1 1) t)
    (hermite hx (gy 0 0) (gy 1 0) (gxy 0 0) (gxy 1 0) t) (hermite hx (gy 0 1) (gy 1 1) (gxy 0 1) (gxy 1 1) t) u

/-- Tricubic interpolation: first in `x`, then in `y`, then in `z`. -/
def tricubic (hx hy hz : K) (g gx gy gz gxy gxz gyz gxyz : Fin 2 → Fin 2 → Fin 2 → W) (t u s : K) : W :=
  let low := fun (v vx vy vxy : Fin 2 → Fin 2 → Fin 2 → W) (c : Fin 2) =>
    bicubic hx hy (fun a b => v a b c) (fun a b => vx a b c) (fun a b => vy a b c) (fun a b => vxy a b c) t u
  hermite hz (low g gx gy gxy 0) (low g gx gy gxy 1) (low gz gxz gyz gxyz 0) (low gz gxz gyz gxyz 1) s

end Verif.Spline
