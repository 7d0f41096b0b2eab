import Verif.SpinSum.Model
import Verif.SpinSum.Spec
import Mathlib.Tactic.NoncommRing
import Mathlib.Tactic.Ring
import Mathlib.Tactic.Linarith
import Mathlib.Algebra.BigOperators.Group.Finset.Basic
import Mathlib.Data.Fintype.BigOperators

/-! C97: sums over internal spins. -/
namespace Verif.SpinSum

open Keldysh

variable {A : Type} [Ring A]

/-- A side of the bubble carries the vertex `g` (and the bosonic `h`): component 0 is the direct, 1 the
exchange part, 2 the value for equal spins. -/
def Carries (S : Side A) (g h : Vert A) : Prop :=
  S.val 0 = g.direct ∧ S.val 1 = g.exchange ∧ S.val 2 = g.at true true true true ∧
  S.w 0 = h.direct ∧ S.w 1 = h.exchange ∧ S.w 2 = h.at true true true true

theorem equal_spins (g : Vert A) : g.at true true true true = g.direct + g.exchange := by
  simp [Vert.at]

/-- The index pattern of the specification is the one of the Keldysh contraction (C33): for all index
values the two vertices are read at the components `indices_sum` gives for internal indices that are equal
at both ends of a line. -/
theorem c97_pattern : ∀ (ch : Ch) (a b c d y z : Fin 2),
    indicesSum ch (pack a b c d) (pack y z y z) =
      match ch with
      | .a => (pack a z y d, pack y b c z)
      | .p => (pack a b y z, pack y z c d)
      | .t => (pack z b y d, pack a y c z) := by
  have h : ∀ (ch : Ch), ch ∈ [Ch.a, Ch.p, Ch.t] → ∀ (a b c d y z : Fin 2),
    indicesSum ch (pack a b c d) (pack y z y z) =
      match ch with
      | .a => (pack a z y d, pack y b c z)
      | .p => (pack a b y z, pack y z c d)
      | .t => (pack z b y d, pack a y c z) := by decide +kernel
  intro ch
  exact h ch (by cases ch <;> simp)

/-- C97: in the channels a and t the integrand computed for the direct (0) and the exchange (1) component is
the sum over the spins of both internal lines, for all vertices and propagator pairs. -/
theorem c97_ring (k : Class) (ch : Ch) (hch : ch ≠ .p) (L R : Side A) (gl gr hl hr : Vert A)
    (hL : Carries L gl hl) (hR : Carries R gr hr) (P : A) :
    scalar false k ch 0 L R P = (bubble ch gl gr P).direct ∧
    scalar false k ch 1 L R P = (bubble ch gl gr P).exchange ∧
    matrixForm ch 0 L R P = (bubble ch gl gr P).direct ∧
    matrixForm ch 1 L R P = (bubble ch gl gr P).exchange := by
  obtain ⟨l0, l1, l2, -⟩ := hL
  obtain ⟨r0, r1, r2, -⟩ := hR
  rw [equal_spins] at l2 r2
  cases ch with
  | p => exact absurd rfl hch
  | a =>
    simp [scalar, matrixForm, summed, bubble, connect, Vert.at, l0, l1, l2, r0, r1, r2]
    noncomm_ring
  | t =>
    simp [scalar, matrixForm, summed, bubble, connect, Vert.at, l0, l1, l2, r0, r1, r2]
    noncomm_ring

/-- C97: in the channel p each computed component is one of the two terms of the sum over spins; the sum is
twice it whenever exchanging the two internal lines does not change the value (the p bubble carries a
factor one half). -/
theorem c97_pair (k : Class) (L R : Side A) (gl gr hl hr : Vert A)
    (hL : Carries L gl hl) (hR : Carries R gr hr) (P : A)
    (hx : gl.exchange * P * gr.exchange = gl.direct * P * gr.direct ∧
      gl.direct * P * gr.exchange = gl.exchange * P * gr.direct) :
    2 * scalar false k .p 0 L R P = (bubble .p gl gr P).direct ∧
    2 * scalar false k .p 1 L R P = (bubble .p gl gr P).exchange ∧
    matrixForm .p 0 L R P = scalar false k .p 0 L R P ∧ matrixForm .p 1 L R P = scalar false k .p 1 L R P := by
  obtain ⟨l0, l1, l2, -⟩ := hL
  obtain ⟨r0, r1, r2, -⟩ := hR
  simp [scalar, matrixForm, summed, bubble, connect, Vert.at, l0, l1, l2, r0, r1, r2, hx.1, hx.2]
  constructor <;> noncomm_ring

/-- C97: in the single-boson-exchange form, the term of the first class is the chain of four vertices. -/
theorem c97_chain (ch : Ch) (hch : ch ≠ .p) (L R : Side A) (gl gr hl hr : Vert A)
    (hL : Carries L gl hl) (hR : Carries R gr hr) (P : A) :
    scalar true .k1 ch 0 L R P = (bubble ch (bubble ch hl gl 1) (bubble ch gr hr 1) P).direct ∧
    scalar true .k1 ch 1 L R P = (bubble ch (bubble ch hl gl 1) (bubble ch gr hr 1) P).exchange := by
  obtain ⟨l0, l1, l2, wl0, wl1, wl2⟩ := hL
  obtain ⟨r0, r1, r2, wr0, wr1, wr2⟩ := hR
  rw [equal_spins] at l2 r2 wl2 wr2
  cases ch with
  | p => exact absurd rfl hch
  | a =>
    simp [scalar, summed, bubble, connect, Vert.at, l0, l1, l2, r0, r1, r2, wl0, wl1, wl2, wr0, wr1, wr2]
    constructor <;> noncomm_ring
  | t =>
    simp [scalar, summed, bubble, connect, Vert.at, l0, l1, l2, r0, r1, r2, wl0, wl1, wl2, wr0, wr1, wr2]
    constructor <;> noncomm_ring

/-- C97: the other classes of the single-boson-exchange form are the plain spin sum in the channels a, t. -/
theorem c97_boson_exchange (k : Class) (hk : k ≠ .k1) (ch : Ch) (hch : ch ≠ .p) (spin : Nat) (L R : Side A) (P : A) :
    scalar true k ch spin L R P = scalar false k ch spin L R P := by
  cases ch <;> simp_all [scalar]

/-- The pointwise sum of products of the three lists loaded for the vectorised frequency sum. -/
def dot (l p r : List A) : A := ((l.zip (p.zip r)).map fun x => x.1 * x.2.1 * x.2.2).sum

/-- C97: the lists loaded for the vectorised frequency sum have equal lengths, and their product is the
scalar integrand, for every class, channel, spin component, decomposition and all values. -/
theorem c97_vectorised (sbe : Bool) (k : Class) (ch : Ch) (spin : Nat) (L R : Side A) (P : A) :
    dot (leftVec sbe k ch spin L) (piVec ch spin P) (rightVec sbe k ch spin R) = scalar sbe k ch spin L R P ∧
    (leftVec sbe k ch spin L).length = (piVec ch spin P).length ∧
    (rightVec sbe k ch spin R).length = (piVec ch spin P).length := by
  refine ⟨?_, ?_, ?_⟩
  · simp only [leftVec, rightVec, piVec, scalar]
    by_cases h1 : summed ch spin = true
    · simp only [h1, if_true]
      split_ifs <;> simp [dot] <;> noncomm_ring
    · rw [Bool.not_eq_true] at h1
      simp only [h1, Bool.false_eq_true, if_false]
      split_ifs <;> simp [dot, mul_assoc]
  · simp only [leftVec, piVec]
    split_ifs <;> rfl
  · simp only [rightVec, piVec]
    split_ifs <;> rfl

/-- A Hubbard-type interaction: opposite spins only; the t bubble of its direct part vanishes, its exchange
part does not. -/
example : ∃ (S : Side ℤ) (g : Vert ℤ), Carries S g g ∧ g.at true true true true = 0 ∧
    scalar false .k3 .t 0 S S 2 = 0 ∧ scalar false .k3 .t 1 S S 2 = 18 ∧ scalar false .k3 .a 0 S S 2 = 18 := by
  refine ⟨Side.mk (fun s => if s = 0 then 3 else if s = 1 then -3 else 0)
    (fun s => if s = 0 then 3 else if s = 1 then -3 else 0), Vert.mk 3 (-3), ?_, ?_, ?_, ?_, ?_⟩ <;>
  simp [Carries, Vert.at, scalar, summed]

end Verif.SpinSum
