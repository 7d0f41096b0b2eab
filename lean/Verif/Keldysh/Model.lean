import Verif.Outcome
import Verif.Index.Model
import Mathlib.Data.Fintype.BigOperators
import Mathlib.Algebra.BigOperators.Fin
import Mathlib.Data.Matrix.Mul
import Mathlib.LinearAlgebra.Matrix.Notation
import Mathlib.Algebra.Star.Basic

/-
Model of the Keldysh-index bookkeeping: /repo/source/symmetries/Keldysh_symmetries.{hpp,c++}, of the
propagator pair /repo/source/bubble/bubble.hpp and of the contraction in /repo/source/bubble/integrand.hpp.
-/
namespace Verif.Keldysh

inductive Ch
  | a | p | t
  deriving DecidableEq, Repr

/-- All channels. -/
def Ch.all : List Ch := [.a, .p, .t]

/-- The loop of `iK_to_alphas`, Keldysh_symmetries.c++:4-14 (four passes with base 8, 4, 2, 1). -/
def alphasLoop : Nat → Nat → Nat → List Nat
  | 0, _, _ => []
  | n + 1, index, base =>
      let al := index / base
      (al + 1) :: alphasLoop n (index - al * base) (base / 2)

/-- `iK_to_alphas`. -/
def iKToAlphas (iK : Nat) : List Nat := alphasLoop 4 iK 8

/-- `alphas_to_iK`, Keldysh_symmetries.c++:16-25: `Σ (alphas[3-i] - 1) * 2^i`. -/
def alphasToIK (al : List Nat) : Nat :=
  (List.range 4).foldl (fun acc i => acc + ((al.getD (3 - i) 0) - 1) * 2 ^ i) 0

/-- `getMultIndex(alpha, iK, {2,2,2,2})`, as used in Keldysh_symmetries.hpp:252-365 (indices 0 and 1). -/
def bit (iK k : Nat) : Nat := ((Index.getMultIndex iK [2, 2, 2, 2]).getD []).getD k 0

/-- `8 * a + 4 * b + 2 * c + d`. -/
def pack (a b c d : Nat) : Nat := (a * 2 + b) * 4 + (c * 2 + d)

/-- `indices_sum`, Keldysh_symmetries.c++:27-51 (differences of 1-based indices). -/
def indicesSum (ch : Ch) (i0 i2 : Nat) : Nat × Nat :=
  let x := fun k => (iKToAlphas i0).getD k 0 - 1
  let y := fun k => (iKToAlphas i2).getD k 0 - 1
  match ch with
  | .a => (8 * x 0 + 4 * y 3 + 2 * y 0 + 1 * x 3, 8 * y 2 + 4 * x 1 + 2 * x 2 + 1 * y 1)
  | .p => (8 * x 0 + 4 * x 1 + 2 * y 0 + 1 * y 1, 8 * y 2 + 4 * y 3 + 2 * x 2 + 1 * x 3)
  | .t => (8 * y 3 + 4 * x 1 + 2 * y 0 + 1 * x 3, 8 * x 0 + 4 * y 2 + 2 * x 2 + 1 * y 1)

/-- `rotate_Keldysh_matrix<channel, is_left_vertex>`, Keldysh_symmetries.hpp:275-320. -/
def rotate (ch : Ch) (left : Bool) (iK : Nat) : Nat :=
  let b := bit iK
  match ch, left with
  | .a, true => pack (b 0) (b 3) (b 2) (b 1)
  | .a, false => pack (b 2) (b 1) (b 0) (b 3)
  | .p, true => pack (b 0) (b 1) (b 2) (b 3)
  | .p, false => pack (b 2) (b 3) (b 0) (b 1)
  | .t, true => pack (b 3) (b 0) (b 2) (b 1)
  | .t, false => pack (b 1) (b 2) (b 0) (b 3)

/-- `unrotate_Keldysh_matrix`, Keldysh_symmetries.hpp:322-367. -/
def unrotate (ch : Ch) (left : Bool) (iK : Nat) : Nat :=
  let b := bit iK
  match ch, left with
  | .a, true => pack (b 0) (b 3) (b 2) (b 1)
  | .a, false => pack (b 2) (b 1) (b 0) (b 3)
  | .p, true => pack (b 0) (b 1) (b 2) (b 3)
  | .p, false => pack (b 2) (b 3) (b 0) (b 1)
  | .t, true => pack (b 1) (b 3) (b 2) (b 0)
  | .t, false => pack (b 2) (b 0) (b 1) (b 3)

/-- `get_i0_left_right`, Keldysh_symmetries.hpp:254-272: row and column block of a component. -/
def leftRight (ch : Ch) (iK : Nat) : Nat × Nat :=
  let b := bit iK
  match ch with
  | .a => (b 0 * 2 + b 3, b 2 * 2 + b 1)
  | .p => (b 0 * 2 + b 1, b 2 * 2 + b 3)
  | .t => (b 1 * 2 + b 3, b 2 * 2 + b 0)

/-! ### Propagator pair -/

/-- Retarded and Keldysh component of a propagator at one frequency (`valsmooth(0, v)`, `valsmooth(1, v)`). -/
structure Prop2 (R : Type) where
  gr : R
  gk : R

section
variable {R : Type} [CommRing R] [StarRing R]

/-- `valsmooth_vectorized`, propagator.hpp:508-523: the matrix `[[0, GA], [GR, GK]]`, `GA = conj(GR)`. -/
def Prop2.matrix (g : Prop2 R) : Matrix (Fin 2) (Fin 2) R := !![0, star g.gr; g.gr, g.gk]

/-- `Bubble::value(iK, v1, v2)`, Keldysh branch without `diff`, bubble.hpp:88-121. -/
def value (g1 g2 : Prop2 R) (iK : Nat) : R :=
  match iK with
  | 3 => star g1.gr * star g2.gr
  | 6 => star g1.gr * g2.gr
  | 7 => star g1.gr * g2.gk
  | 9 => g1.gr * star g2.gr
  | 11 => g1.gk * star g2.gr
  | 12 => g1.gr * g2.gr
  | 13 => g1.gr * g2.gk
  | 14 => g1.gk * g2.gr
  | 15 => g1.gk * g2.gk
  | _ => 0

/-- `Bubble::value`, Keldysh branch with `diff`, bubble.hpp:49-83. -/
def valueDiff (g1 g2 s1 s2 : Prop2 R) (iK : Nat) : R :=
  match iK with
  | 3 => star g1.gr * star s2.gr + star s1.gr * star g2.gr
  | 6 => star g1.gr * s2.gr + star s1.gr * g2.gr
  | 7 => star g1.gr * s2.gk + star s1.gr * g2.gk
  | 9 => g1.gr * star s2.gr + s1.gr * star g2.gr
  | 11 => g1.gk * star s2.gr + s1.gk * star g2.gr
  | 12 => g1.gr * s2.gr + s1.gr * g2.gr
  | 13 => g1.gr * s2.gk + s1.gr * g2.gk
  | 14 => g1.gk * s2.gr + s1.gk * g2.gr
  | 15 => g1.gk * s2.gk + s1.gk * g2.gk
  | _ => 0

end

/-- `glb_non_zero_Keldysh_bubble`, Keldysh_symmetries.hpp:180. -/
def nonZeroBubble : List Nat := [3, 6, 7, 9, 11, 12, 13, 14, 15]

/-- The 4×4 matrix of `Bubble::value_vectorized` without `diff`, bubble.hpp:273-284, spelled out as in the
code. -/
def piMatrix {R : Type} [CommRing R] (ch : Ch) (G H : Matrix (Fin 2) (Fin 2) R) :
    Matrix (Fin 4) (Fin 4) R :=
  match ch with
  | .p => !![G 0 0 * H 0 0, G 0 0 * H 0 1, G 0 1 * H 0 0, G 0 1 * H 0 1;
             G 0 0 * H 1 0, G 0 0 * H 1 1, G 0 1 * H 1 0, G 0 1 * H 1 1;
             G 1 0 * H 0 0, G 1 0 * H 0 1, G 1 1 * H 0 0, G 1 1 * H 0 1;
             G 1 0 * H 1 0, G 1 0 * H 1 1, G 1 1 * H 1 0, G 1 1 * H 1 1]
  | _ =>   !![G 0 0 * H 0 0, G 0 0 * H 1 0, G 0 1 * H 0 0, G 0 1 * H 1 0;
             G 0 0 * H 0 1, G 0 0 * H 1 1, G 0 1 * H 0 1, G 0 1 * H 1 1;
             G 1 0 * H 0 0, G 1 0 * H 1 0, G 1 1 * H 0 0, G 1 1 * H 1 0;
             G 1 0 * H 0 1, G 1 0 * H 1 1, G 1 1 * H 0 1, G 1 1 * H 1 1]

/-- The same with `diff`, bubble.hpp:259-270: `S1 G2 + G1 S2` in every entry. -/
def piMatrixDiff {R : Type} [CommRing R] (ch : Ch) (G H S T : Matrix (Fin 2) (Fin 2) R) :
    Matrix (Fin 4) (Fin 4) R :=
  match ch with
  | .p => !![S 0 0 * H 0 0 + G 0 0 * T 0 0, S 0 0 * H 0 1 + G 0 0 * T 0 1, S 0 1 * H 0 0 + G 0 1 * T 0 0, S 0 1 * H 0 1 + G 0 1 * T 0 1;
             S 0 0 * H 1 0 + G 0 0 * T 1 0, S 0 0 * H 1 1 + G 0 0 * T 1 1, S 0 1 * H 1 0 + G 0 1 * T 1 0, S 0 1 * H 1 1 + G 0 1 * T 1 1;
             S 1 0 * H 0 0 + G 1 0 * T 0 0, S 1 0 * H 0 1 + G 1 0 * T 0 1, S 1 1 * H 0 0 + G 1 1 * T 0 0, S 1 1 * H 0 1 + G 1 1 * T 0 1;
             S 1 0 * H 1 0 + G 1 0 * T 1 0, S 1 0 * H 1 1 + G 1 0 * T 1 1, S 1 1 * H 1 0 + G 1 1 * T 1 0, S 1 1 * H 1 1 + G 1 1 * T 1 1]
  | _ =>   !![S 0 0 * H 0 0 + G 0 0 * T 0 0, S 0 0 * H 1 0 + G 0 0 * T 1 0, S 0 1 * H 0 0 + G 0 1 * T 0 0, S 0 1 * H 1 0 + G 0 1 * T 1 0;
             S 0 0 * H 0 1 + G 0 0 * T 0 1, S 0 0 * H 1 1 + G 0 0 * T 1 1, S 0 1 * H 0 1 + G 0 1 * T 0 1, S 0 1 * H 1 1 + G 0 1 * T 1 1;
             S 1 0 * H 0 0 + G 1 0 * T 0 0, S 1 0 * H 1 0 + G 1 0 * T 1 0, S 1 1 * H 0 0 + G 1 1 * T 0 0, S 1 1 * H 1 0 + G 1 1 * T 1 0;
             S 1 0 * H 0 1 + G 1 0 * T 0 1, S 1 0 * H 1 1 + G 1 0 * T 1 1, S 1 1 * H 0 1 + G 1 1 * T 0 1, S 1 1 * H 1 1 + G 1 1 * T 1 1]

/-! ### Contraction -/

variable {R : Type} [CommRing R]

/-- `load_vertex_keldyshComponents_left_vectorized`, integrand.hpp:543-558: the 16 stored values (position
`k` holds component `rotate<ch,left>(k)`, r_vertex.hpp:858-881) reshaped column-major and transposed. -/
def loadLeft (ch : Ch) (Γ : Nat → R) : Matrix (Fin 4) (Fin 4) R :=
  fun i j => Γ (rotate ch true (4 * i + j))

/-- `load_vertex_keldyshComponents_right_vectorized`, integrand.hpp:561-580: reshaped column-major. -/
def loadRight (ch : Ch) (Γ : Nat → R) : Matrix (Fin 4) (Fin 4) R :=
  fun i j => Γ (rotate ch false (4 * j + i))

/-- Vectorised integrand (integrand.hpp:1001-1215, no spin sum, no SBE): `L Π R`; `writeBack` is
bubble_function.hpp:512-521, which stores entry `(i, j)` at component `rotate<ch,left>(4 i + j)`. -/
def integrandMatrix (ch : Ch) (ΓL ΓR : Nat → R) (P : Matrix (Fin 4) (Fin 4) R) :
    Matrix (Fin 4) (Fin 4) R :=
  loadLeft ch ΓL * P * loadRight ch ΓR

/-- The loops of bubble_function.hpp:514-520 writing into an array of 16 entries. -/
def writeBack (ch : Ch) (M : Matrix (Fin 4) (Fin 4) R) (value : Nat → R) : Nat → R :=
  (List.finRange 4).foldl (fun v i =>
    (List.finRange 4).foldl (fun v j => fun k => if k = rotate ch true (4 * i.val + j.val) then M i j else v k) v) value

/-- Scalar integrand summed over the internal Keldysh index (`SWITCH_SUM_N_INTEGRAL == 0`:
integrand.hpp:298-312, 405-500 and the loop over `glb_non_zero_Keldysh_bubble`). -/
def integrandScalar (ch : Ch) (ΓL ΓR : Nat → R) (P : Nat → R) (i0 : Nat) : R :=
  (nonZeroBubble.map fun i2 => ΓL (indicesSum ch i0 i2).1 * P i2 * ΓR (indicesSum ch i0 i2).2).sum

end Verif.Keldysh
