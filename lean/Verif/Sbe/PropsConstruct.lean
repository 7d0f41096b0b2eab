import Verif.Sbe.ModelConstruct
import Verif.SpinSum.Spec
import Mathlib.Tactic.NoncommRing
import Mathlib.Tactic.Abel
import Mathlib.Data.Fintype.BigOperators

/-! C132: the vertex assembled from its single-boson-exchange parts. -/
namespace Verif.Sbe

open Keldysh SpinSum

variable {A : Type} [Ring A]

/-- Two spin-conserving objects joined along the internal legs of a channel, with the sum over the internal spins. -/
def join (ch : Ch) (L R : Vert A) : Vert A := bubble ch L R 1

/-- Sum of two vertices. -/
def plus (L R : Vert A) : Vert A := ⟨L.direct + R.direct, L.exchange + R.exchange⟩

/-- The three components of a quantity are those of a spin-conserving vertex: direct, exchange, equal spins. -/
def Is (v : Nat → Part A) (f : Part A → A) (g : Vert A) : Prop :=
  f (v 0) = g.direct ∧ f (v 1) = g.exchange ∧ f (v 2) = g.at true true true true

/-- A quantity of the two computed components as a vertex. -/
def vert (f : Part A → A) (x y : Part A) : Vert A := ⟨f x, f y⟩

theorem join_assoc (ch : Ch) (hch : ch ≠ .p) (L M R : Vert A) : join ch (join ch L M) R = join ch L (join ch M R) := by
  cases ch with
  | p => exact absurd rfl hch
  | a =>
    simp only [join, bubble, connect, Vert.at, Fintype.sum_bool, Vert.mk.injEq]
    simp
    constructor <;> noncomm_ring
  | t =>
    simp only [join, bubble, connect, Vert.at, Fintype.sum_bool, Vert.mk.injEq]
    simp
    constructor <;> noncomm_ring

/-- C132: in the channels a and t, wherever the channel is handled: K2 is the vertex joined to the boson, K2b the boson
joined to the second vertex, the twice reducible part the boson between both vertices, all with the sum over internal
spins and for the three spin components; K1, K3 are kept. The boson is K1 and the bare vertex, whose components for the
two spins are opposite. -/
theorem c132_ring (bub ch : Ch) (full : Bool) (hch : ch ≠ .p) (hon : bub ≠ ch ∨ full = true) (x y : Part A)
    (hb : y.bare = -x.bare) :
    Is (expand bub ch full x y) Part.w (vert Part.w x y) ∧
    Is (expand bub ch full x y) Part.k2 (join ch (vert Part.k2 x y) (vert Part.w x y)) ∧
    Is (expand bub ch full x y) Part.k2b (join ch (vert Part.w x y) (vert Part.k2b x y)) ∧
    Is (expand bub ch full x y) Part.k3sbe
      (join ch (join ch (vert Part.k2 x y) (vert Part.w x y)) (vert Part.k2b x y)) ∧
    Is (expand bub ch full x y) Part.k3sbe
      (join ch (vert Part.k2 x y) (join ch (vert Part.w x y) (vert Part.k2b x y))) ∧
    Is (expand bub ch full x y) Part.k3 (vert Part.k3 x y) := by
  rw [← join_assoc ch hch]
  have ha : active bub ch full = true := by
    rcases hon with h | h <;> simp [active, h]
  cases ch with
  | p => exact absurd rfl hch
  | a =>
    simp [expand, ha, nondiffK2, nondiffK3, nondiffK2b, assign, expandImpl, setK2, setK3, setK2b, comb2, comb2b, comb3,
      Is, join, bubble, connect, Vert.at, vert, Part.w, hb]
    refine ⟨?_, ?_, ?_, ?_⟩ <;> (try constructor) <;> (try constructor) <;> first | noncomm_ring | abel
  | t =>
    simp [expand, ha, nondiffK2, nondiffK3, nondiffK2b, assign, expandImpl, setK2, setK3, setK2b, comb2, comb2b, comb3,
      Is, join, bubble, connect, Vert.at, vert, Part.w, hb]
    refine ⟨?_, ?_, ?_, ?_⟩ <;> (try constructor) <;> (try constructor) <;> first | noncomm_ring | abel

/-- C132: in the channel p each component is one of two terms of the sum over internal spins; the sum is twice it
whenever exchanging the two internal legs does not change the value. -/
theorem c132_pair (bub : Ch) (full : Bool) (hon : bub ≠ .p ∨ full = true) (x y : Part A) (hb : y.bare = -x.bare)
    (h1 : y.k2 * y.w = x.k2 * x.w ∧ y.k2 * x.w = x.k2 * y.w)
    (h2 : y.w * y.k2b = x.w * x.k2b ∧ x.w * y.k2b = y.w * x.k2b) :
    (let v := expand bub .p full x y
     v 2 = ⟨0, (v 0).k1 + (v 1).k1, (v 0).k2 + (v 1).k2, (v 0).k2b + (v 1).k2b, (v 0).k3 + (v 1).k3, (v 0).k3sbe + (v 1).k3sbe⟩ ∧
     (v 2).w = (v 0).w + (v 1).w ∧
     2 * (v 0).k2 = (join .p (vert Part.k2 x y) (vert Part.w x y)).direct ∧
     2 * (v 1).k2 = (join .p (vert Part.k2 x y) (vert Part.w x y)).exchange ∧
     2 * (v 0).k2b = (join .p (vert Part.w x y) (vert Part.k2b x y)).direct ∧
     2 * (v 1).k2b = (join .p (vert Part.w x y) (vert Part.k2b x y)).exchange ∧
     4 * (v 0).k3sbe = (join .p (join .p (vert Part.k2 x y) (vert Part.w x y)) (vert Part.k2b x y)).direct ∧
     4 * (v 1).k3sbe = (join .p (join .p (vert Part.k2 x y) (vert Part.w x y)) (vert Part.k2b x y)).exchange) := by
  have ha : active bub .p full = true := by
    rcases hon with h | h <;> simp [active, h]
  have four : (4 : A) = 2 + 2 := by norm_num
  obtain ⟨a1, a2⟩ := h1
  obtain ⟨b1, b2⟩ := h2
  have c1 : x.k2 * y.w * y.k2b = x.k2 * x.w * x.k2b := by rw [mul_assoc, b1, mul_assoc]
  have c2 : x.k2 * x.w * y.k2b = x.k2 * y.w * x.k2b := by rw [mul_assoc, b2, mul_assoc]
  refine ⟨?_, ?_, ?_, ?_, ?_, ?_, ?_, ?_⟩
  · simp [expand, ha, nondiffK2, nondiffK3, nondiffK2b, assign, expandImpl, setK2, setK3, setK2b]
  · simp [expand, ha, nondiffK2, nondiffK3, nondiffK2b, assign, expandImpl, setK2, setK3, setK2b, Part.w, hb]; abel
  all_goals
    simp [expand, ha, nondiffK2, nondiffK3, nondiffK2b, assign, expandImpl, setK2, setK3, setK2b, comb2, comb2b, comb3,
      join, bubble, connect, Vert.at, vert, Part.w]
    simp only [Part.w] at a1 a2 b1 b2 c1 c2
    simp only [a1, a2, b1, b2, c1, c2, add_mul, ← two_mul]
  · rw [mul_assoc 2, mul_assoc 2 (x.k2 * (y.k1 + y.bare)), c1, four, add_mul]
  · rw [mul_assoc 2, mul_assoc 2 (x.k2 * (y.k1 + y.bare)), c2, four, add_mul]

/-- C132: in the channel of the bubble, unless the full vertex is asked for, the parts are left as they are. -/
theorem c132_kept (ch : Ch) (x y : Part A) (s : Nat) :
    (expand ch ch false x y s).k2 = (expandImpl x y s).k2 ∧ (expand ch ch false x y s).k2b = (expandImpl x y s).k2b ∧
    (expand ch ch false x y s).w = (expandImpl x y s).w ∧ (expand ch ch false x y s).k3 = (expandImpl x y s).k3 ∧
    (s < 2 → (expand ch ch false x y s).k3sbe = (expandImpl x y s).k3sbe) := by
  have ha : active ch ch false = false := by simp [active]
  have hs : s = 0 ∨ s = 1 ∨ 2 ≤ s := by omega
  rcases hs with rfl | rfl | hs
  · cases ch <;> simp [expand, ha, nondiffK2, nondiffK3, nondiffK2b, assign]
  · cases ch <;> simp [expand, ha, nondiffK2, nondiffK3, nondiffK2b, assign]
  · have h0 : s ≠ 0 := by omega
    have h1 : s ≠ 1 := by omega
    have h2 : ¬ s < 2 := by omega
    cases ch <;> simp [expand, ha, nondiffK2, nondiffK3, nondiffK2b, assign, expandImpl, setK2, setK3, setK2b, Part.w, h0, h1, h2]

/-- Sum of two sets of buffers, and one scaled from the left. -/
def Part.add (x y : Part A) : Part A := ⟨x.bare + y.bare, x.k1 + y.k1, x.k2 + y.k2, x.k2b + y.k2b, x.k3 + y.k3, x.k3sbe + y.k3sbe⟩
def Part.scale (e : A) (x : Part A) : Part A := ⟨e * x.bare, e * x.k1, e * x.k2, e * x.k2b, e * x.k3, e * x.k3sbe⟩

set_option maxHeartbeats 1000000 in
/-- C132: what is assembled for a differentiated vertex is the derivative of what is assembled for the vertex: shifting
the parts by an infinitesimal multiple `ε` (`ε² = 0`) of their derivatives shifts the result by that multiple of the
differentiated result; in every channel, for every bubble and all three spin components. -/
theorem c132_derivative (bub ch : Ch) (full : Bool) (e : A) (hc : ∀ a, a * e = e * a) (he : e * e = 0)
    (x y x' y' : Part A) (s : Nat) (hs : s < 3) (f : Part A → A)
    (hf : f = Part.k2 ∨ f = Part.k2b ∨ f = Part.k3sbe ∨ f = Part.k3 ∨ f = Part.w)
    (h0 : active bub ch full = true) :
    f (expand bub ch full (x'.add (x.scale e)) (y'.add (y.scale e)) s) =
      f (expand bub ch full x' y' s) + e * f (expandDiff bub ch full x y x' y' s) := by
  have hm : ∀ a b, a * (e * b) = e * (a * b) := fun a b => by rw [← mul_assoc, hc, mul_assoc]
  have hz : ∀ b, e * (e * b) = 0 := fun b => by rw [← mul_assoc, he, zero_mul]
  have hs' : s = 0 ∨ s = 1 ∨ s = 2 := by omega
  rcases hs' with rfl | rfl | rfl <;> rcases hf with rfl | rfl | rfl | rfl | rfl <;> cases ch <;>
    simp [expand, expandDiff, h0, nondiffK2, nondiffK3, nondiffK2b, diffK2, diffK3, diffK2b, assign, expandImpl, setK2,
      setK3, setK2b, comb2, comb2b, comb3, Part.w, Part.add, Part.scale] <;>
    (try simp only [mul_add, add_mul, mul_assoc, hm, hz, add_zero, zero_add]) <;> (try abel)

/-- An interaction with a boson and vertices on both sides, as numbers: the twice reducible part of channel a is the
product of the three for the direct component, and not zero for the exchange component. -/
example : let v := expand (A := ℤ) .t .a false ⟨1, 2, 5, 7, 0, 0⟩ ⟨-1, 0, 1, 1, 0, 0⟩
    (v 0).k3sbe = 105 ∧ (v 1).k3sbe = -21 ∧ (v 2).k3sbe = 84 := by decide

end Verif.Sbe
