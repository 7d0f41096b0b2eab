import Verif.Keldysh.Model

/-
Specification of the self-energy loop. A vertex has two outgoing legs `1', 2'` and two incoming legs `1, 2`;
its component with Keldysh (or contour) indices `a` on `1'`, `b` on `2'`, `c` on `1`, `d` on `2` is number
`8 a + 4 b + 2 c + d`. A propagator has one index for the end of the line and one for its start.
-/
namespace Verif.Loop

open Keldysh

variable {R : Type} [CommRing R]

/-- Component number. -/
def leg (a b c d : Fin 2) : Nat := 8 * a.val + 4 * b.val + 2 * c.val + d.val

/-- Loop closed over leg `2'` and leg `2`: self-energy component with index `out` on `1'` and `inn` on `1`. -/
def closeSecond (G : Matrix (Fin 2) (Fin 2) R) (Γ : Nat → R) (out inn : Fin 2) : R :=
  ∑ b : Fin 2, ∑ d : Fin 2, G d b * Γ (leg out b inn d)

/-- Loop closed over leg `1'` and leg `2`: self-energy component with index `out` on `2'` and `inn` on `1`. -/
def closeCrossed (G : Matrix (Fin 2) (Fin 2) R) (Γ : Nat → R) (out inn : Fin 2) : R :=
  ∑ a : Fin 2, ∑ d : Fin 2, G d a * Γ (leg a out inn d)

/-- Exchange of both pairs of legs leaves the vertex unchanged. -/
def Exchange (Γ : Nat → R) : Prop := ∀ a b c d : Fin 2, Γ (leg a b c d) = Γ (leg b a d c)

/-- Crossing: exchanging the outgoing legs turns one vertex into minus the other. -/
def Crossing (Γ Γ' : Nat → R) : Prop := ∀ a b c d : Fin 2, Γ' (leg a b c d) = -Γ (leg b a c d)

/-- Rotation from the contour basis to the Keldysh basis: `(φ_- - φ_+, φ_- + φ_+)/√2`, without the factor. -/
def rot {K : Type} [Field K] (i j : Fin 2) : K := if i = 0 ∧ j = 1 then -1 else 1

/-- The vertex in the Keldysh basis: every leg rotated. -/
def rotateVertex {K : Type} [Field K] (Γ : Nat → K) (a b c d : Fin 2) : K :=
  1/4 * ∑ a' : Fin 2, ∑ b' : Fin 2, ∑ c' : Fin 2, ∑ d' : Fin 2,
    rot a a' * rot b b' * rot c c' * rot d d' * Γ (leg a' b' c' d')

end Verif.Loop
