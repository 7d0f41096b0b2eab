import Verif.Invariant.Model
import Verif.Multiloop.Spec
import Verif.Heredity.PropsLines
import Verif.Sde.SpecLimit
import Verif.Chains.Kernel

/-! Four-point functions with which all diagrams can be computed: bounded and continuous in the energies of the legs. -/
namespace Verif.Chains
open Verif.Heredity Verif.Invariant

/-- Four-point functions: spin component (`false`: spins pass straight, `true`: crosswise), Keldysh indices, and the energies
of the outgoing legs and the first incoming leg; the energy of the last leg follows from conservation. The norm is the largest
modulus. -/
def Four : Type := Bool → (Fin 4 → Bool) → F3

noncomputable instance : NormedAddCommGroup Four := inferInstanceAs (NormedAddCommGroup (Bool → (Fin 4 → Bool) → F3))
noncomputable instance : NormedSpace ℝ Four := inferInstanceAs (NormedSpace ℝ (Bool → (Fin 4 → Bool) → F3))
instance : CompleteSpace Four := inferInstanceAs (CompleteSpace (Bool → (Fin 4 → Bool) → F3))

/-- The energies of all legs. -/
def allLegs (e : ℝ × ℝ × ℝ) : Fin 4 → ℝ := ![e.1, e.2.1, e.2.2, e.1 + e.2.1 - e.2.2]

/-- A four-point function as the diagrams of the code read it: the same for both positions in a bubble and in every
channel. -/
noncomputable def asVertex (A : Four) : VF := fun _ _ s α ν => A (s != 0) α (ν 0, ν 1, ν 2)

/-- The number of a spin component in the code. -/
def spinNo (s : Bool) : Nat := if s then 1 else 0

/-- The channel in the notation of the bubble functions. -/
def chan : Keldysh.Ch → Freqs.Ch
  | .a => .a
  | .p => .p
  | .t => .t

/-- The channel as a label of reducible parts. -/
def unchan : Freqs.Ch → Keldysh.Ch
  | .a => .a
  | .p => .p
  | .t => .t

/-- Reducible parts as a vertex of the code: the part reducible in the channel at hand, at energies that are conserved. -/
noncomputable def parts (T : Keldysh.Ch → Four) : VF := fun _ c s α ν =>
  open Classical in if ν 0 + ν 1 = ν 2 + ν 3 then T (unchan c) (s != 0) α (ν 0, ν 1, ν 2) else 0

/-- `pi` is the family of bubbles with the pair of propagators `P`, as the code computes them. -/
def IsBubble (P : Pair) (pi : Keldysh.Ch → Four →L[ℝ] Four →L[ℝ] Four) : Prop :=
  ∀ r A B s α e, pi r A B s α e = bub (asVertex A) (asVertex B) P false (chan r) (spinNo s) α (allLegs e)

/-- The Bethe–Salpeter equations, in both forms, with the bubbles of the code: each reducible part of the vertex is the bubble of
the part irreducible in its channel with the full vertex, on either side. -/
def Equations (P : Pair) (bare : Four) (red : Keldysh.Ch → Four) : Prop :=
  ∀ r s α e,
    red r s α e = bub (asVertex (bare + Multiloop.others r red)) (asVertex (bare + Multiloop.total red)) P false (chan r) (spinNo s) α (allLegs e) ∧
    red r s α e = bub (asVertex (bare + Multiloop.total red)) (asVertex (bare + Multiloop.others r red)) P false (chan r) (spinNo s) α (allLegs e)

/-- The bare vertex for the interaction strength `w`. -/
noncomputable def bareFour (w : ℝ) : Four := fun s α => BoundedContinuousFunction.const _ (Sde.Limit.bareK w false .a (spinNo s) α 0)

/-- The parameters at the scale `l`. -/
def scale (p : Propagator.Par) (l : ℝ) : Propagator.Par := { p with Lam := l }

/-- The self-energies `σ l` at the scales in the open set `J`, with derivatives `dσ l`: they are retarded, the derivatives are
bounded and continuous, satisfy the fluctuation-dissipation relation, and are attained uniformly in the frequency. -/
structure SelfFamily (p : Propagator.Par) (J : Set ℝ) (σ dσ : ℝ → SF) : Prop where
  isOpen : IsOpen J
  pos : ∀ l ∈ J, 0 < p.Gam + l
  retarded : ∀ l ∈ J, RetardedSE (σ l).1
  dcont : ∀ l ∈ J, Continuous (dσ l).1
  dbound : ∀ l ∈ J, ∃ B, ∀ v, ‖(dσ l).1 v‖ ≤ B
  fdt : ∀ l ∈ J, ∀ v, (dσ l).2 v = Complex.I * (Propagator.effFac true v p.T p.mu 0 * 2 * ((dσ l).1 v).im : ℝ)
  deriv : ∀ l ∈ J, ∀ ε > 0, ∀ᶠ l' in nhds l, ∀ v, ‖(σ l').1 v - (σ l).1 v - (l' - l : ℝ) * (dσ l).1 v‖ ≤ ε * |l' - l|
  cont : ∀ l ∈ J, ∀ ε > 0, ∀ᶠ l' in nhds l, ∀ v, ‖(dσ l').1 v - (dσ l).1 v‖ ≤ ε

end Verif.Chains
