import Verif.Symmetries.Model
import Verif.Freqs.Spec
import Mathlib.Logic.Equiv.Basic
import Mathlib.GroupTheory.Perm.Basic
import Mathlib.Data.Fintype.Basic

/-! What the symmetry transformations are supposed to do, in terms of the four legs `1', 2', 1, 2` of a vertex
(numbered 0 to 3) and independently of the channel conventions and of the bookkeeping flags. -/
namespace Verif.Symmetries

open Verif.Freqs (Ch Fr Legs)

/-- Keldysh index of each leg (false = 1, true = 2). -/
def bits (iK : Nat) : Fin 4 → Bool := fun k => iK.testBit (3 - k.val)

/-- Leg energies as a function of the leg. -/
def legFun {K : Type} (l : Legs K) : Fin 4 → K := ![l.o1, l.o2, l.i1, l.i2]

/-- Exchange of the incoming legs. -/
def swapIn : Equiv.Perm (Fin 4) := Equiv.swap 2 3
/-- Exchange of the outgoing legs. -/
def swapOut : Equiv.Perm (Fin 4) := Equiv.swap 0 1
/-- Exchange of every outgoing leg with the incoming leg of the same label. -/
def inOut : Equiv.Perm (Fin 4) := Equiv.swap 0 2 * Equiv.swap 1 3

/-- The two legs on the left of a two-particle-reducible diagram of a channel. -/
def leftLegs : Ch → List (Fin 4)
  | .a => [0, 3]
  | .p => [0, 1]
  | .t => [1, 3]

/-- The channel in which a diagram is reducible after its incoming (or outgoing) legs have been exchanged. -/
def crossed : Ch → Ch
  | .a => .t
  | .p => .p
  | .t => .a

/-- Whether the exchange of legs turns the left legs of channel `c` into the right legs of channel `c'`. -/
def sideFlip (c c' : Ch) (π : Equiv.Perm (Fin 4)) : Bool :=
  decide (¬ ∀ k ∈ leftLegs c, π k ∈ leftLegs c')

/-- Number of Keldysh indices equal to 2. -/
def twos (α : Fin 4 → Bool) : Nat := (if α 0 then 1 else 0) + (if α 1 then 1 else 0) +
  (if α 2 then 1 else 0) + (if α 3 then 1 else 0)

/-- Sign of a Keldysh component under conjugation: `(-1)^(1 + α₁' + α₂' + α₁ + α₂)`; three-point vertices have
the opposite sign. -/
def conjSign (lambda : Bool) (α : Fin 4 → Bool) : Int :=
  if twos α % 2 = 0 then (if lambda then 1 else -1) else (if lambda then -1 else 1)

/-- A pair of reducible vertices (the vertex itself and its mirror image, which differ for the asymmetric
vertices of the multi-loop flow) as functions of channel, spin component, Keldysh indices and energies of the
legs. -/
structure Vertex (K R : Type) where
  val : Bool → Ch → Nat → (Fin 4 → Bool) → (Fin 4 → K) → R

/-- Crossing symmetry, conjugation symmetry, particle-hole symmetry and time reversal. -/
structure Sym {K R : Type} [CommRing K] [Ring R] [StarRing R] (cfg : Cfg) (V : Vertex K R) : Prop where
  crossIn : ∀ h c s α ν, s < 2 → V.val h c s α ν = (if cfg.lambda then 1 else -1 : R) *
    V.val (xor h (sideFlip c (crossed c) swapIn)) (crossed c) (1 - s) (α ∘ swapIn) (ν ∘ swapIn)
  crossOut : ∀ h c s α ν, s < 2 → V.val h c s α ν = (if cfg.lambda then 1 else -1 : R) *
    V.val (xor h (sideFlip c (crossed c) swapOut)) (crossed c) (1 - s) (α ∘ swapOut) (ν ∘ swapOut)
  conjK : cfg.keldysh = true → ∀ h c s α ν, s < 2 → V.val h c s α ν = (conjSign cfg.lambda α : R) *
    star (V.val (xor h (sideFlip c c inOut)) c s (α ∘ inOut) (ν ∘ inOut))
  conjM : cfg.keldysh = false → ∀ h c s α ν, s < 2 → V.val h c s α ν =
    star (V.val (xor h (sideFlip c c inOut)) c s (α ∘ inOut) (fun k => - ν (inOut k)))
  ph : cfg.keldysh = true → cfg.ph = true → ∀ h c s α ν, s < 2 → V.val h c s α ν =
    (conjSign cfg.lambda α : R) * star (V.val h c s α (fun k => - ν k))
  tr : cfg.keldysh = false → ∀ h c s α ν, s < 2 → V.val h c s α ν =
    star (V.val h c s α (fun k => - ν k))
  /-- With particle-hole symmetry imaginary-frequency vertices are real numbers. -/
  real : cfg.keldysh = false → cfg.ph = true → ∀ r : R, star r = r

/-- Leg energies of a frequency triple in channel `c`, when `lo w` is the part of the bosonic frequency `w`
that is subtracted (`w/2`, or its even floor for discrete frequencies) and `w - lo w` the part that is added. -/
def legsR {K : Type} [CommRing K] (lo : K → K) (c : Ch) (x : Fr K) : Legs K :=
  match c with
  | .a => ⟨x.v1 - lo x.w, x.v2 + (x.w - lo x.w), x.v2 - lo x.w, x.v1 + (x.w - lo x.w)⟩
  | .p => ⟨x.v1 + (x.w - lo x.w), lo x.w - x.v1, x.v2 + (x.w - lo x.w), lo x.w - x.v2⟩
  | .t => ⟨x.v2 + (x.w - lo x.w), x.v1 - lo x.w, x.v2 - lo x.w, x.v1 + (x.w - lo x.w)⟩

/-- The value that a reader obtains from arguments carrying prefactor, conjugation and side flags. -/
def read {K R : Type} [CommRing K] [Ring R] [StarRing R] (cfg : Cfg) (lo : K → K) (V : Vertex K R)
    (x : Ind K) : R :=
  applyRead cfg x (V.val x.asym x.ch x.spin (bits x.iK) (legFun (legsR lo x.ch x.f)))

/-! ### Keldysh structure of the diagrammatic classes -/

/-- Parity of the Keldysh indices of two legs. -/
def odd2 (x y : Bool) : Bool := xor x y

/-- What a diagram of a class can depend on: a pair of legs attached to a bare vertex enters only through the
parity of its indices. First component: left pair, second: right pair. -/
def reduced (c : Ch) (k : KClass) (iK : Nat) : List Bool × List Bool :=
  let b := bits iK
  let (l, r) : (Bool × Bool) × (Bool × Bool) := match c with
    | .a => ((b 0, b 3), (b 1, b 2))
    | .p => ((b 0, b 1), (b 2, b 3))
    | .t => ((b 1, b 3), (b 0, b 2))
  let full := fun x : Bool × Bool => [x.1, x.2]
  let par := fun x : Bool × Bool => [odd2 x.1 x.2]
  match k with
  | .k1 => (par l, par r)
  | .k2 => (full l, par r)
  | .k2b => (par l, full r)
  | .k3 => (full l, full r)

/-- Causality: a component vanishes if all its outer indices are 2, where the index of a pair attached to a
bare vertex counts as 2 if the pair is of even parity (a bare vertex needs an odd number of 2s, so that the
inner pair is then of odd parity). -/
def vanishes (c : Ch) (k : KClass) (iK : Nat) : Bool :=
  let (l, r) := reduced c k iK
  let side := fun x : List Bool => match x with
    | [p] => !p
    | xs => xs.all id
  side l && side r

/-- Exchanges of legs that keep channel and spin component: nothing, both crossings, conjugation, all. -/
def keepSpin : List (Equiv.Perm (Fin 4)) := [1, swapIn * swapOut, inOut, swapIn * swapOut * inOut]

/-- Those that map a diagrammatic class to itself: the classes `K2`, `K2b` distinguish left and right. -/
def keepClass (c : Ch) (k : KClass) : List (Equiv.Perm (Fin 4)) :=
  match k with
  | .k1 | .k3 => keepSpin
  | .k2 | .k2b => keepSpin.filter (fun π => !sideFlip c c π)

/-- Keldysh index with the given bits. -/
def ofBits (b : Fin 4 → Bool) : Nat :=
  8 * (b 0).toNat + 4 * (b 1).toNat + 2 * (b 2).toNat + (b 3).toNat

/-- Two Keldysh indices of one class, channel and spin component carry the same information: after an exchange
of legs that keeps channel, spin and class, they look the same to the diagram. -/
def Related (c : Ch) (k : KClass) (i j : Nat) : Prop :=
  ∃ π ∈ keepClass c k, reduced c k (ofBits (bits i ∘ π)) = reduced c k j

/-- Number of independent Keldysh components of each class (`K1`: retarded/advanced and Keldysh). -/
def KClass.count : KClass → Int
  | .k1 => 2 | .k2 => 5 | .k2b => 5 | .k3 => 6

end Verif.Symmetries
