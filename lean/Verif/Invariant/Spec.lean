import Verif.Invariant.Model

/-! What the flow is to keep. -/
namespace Verif.Invariant
open Verif.Symmetries Verif.Heredity

/-- A vertex with crossing, conjugation and (for `ph`) particle-hole symmetry that equals its mirror image. -/
structure GoodV (ph : Bool) (V : VF) : Prop where
  sym : Sym ⟨true, ph, false⟩ ⟨V⟩
  same : ∀ h, V h = V false

/-- A self-energy with anti-Hermitian Keldysh component and, for `ph`, particle-hole symmetry around a level at `e`. -/
structure GoodS (ph : Bool) (e : ℝ) (σ : SF) : Prop where
  anti : ∀ v, star (σ.2 v) = -σ.2 v
  ph : ph = true → ∀ v, σ.1 (-v) = -star (σ.1 v) - 2 * e ∧ σ.2 (-v) = -σ.2 v

/-- Requirements on what the model leaves open: extracting K2 keeps crossing, conjugation and particle-hole symmetry, is
additive, and leaves no K2b; acceleration forms a linear combination of the self-energies it is given. -/
structure GoodOpen (ph : Bool) (o : Open) : Prop where
  sym : ∀ V : VF, Sym ⟨true, ph, false⟩ ⟨V⟩ → Sym ⟨true, ph, false⟩ ⟨o.k2 V⟩
  add : ∀ V W, o.k2 (V + W) = o.k2 V + o.k2 W
  k2b : ∀ V, o.k2 (mirror (o.k2 V)) = 0
  accel : ∀ ev st, ∃ a b : List ℝ,
    o.accel ev st = (List.zipWith (fun (r : ℝ) x => r • x.2) a ev).sum + (List.zipWith (fun (r : ℝ) x => r • x.2) b st).sum

end Verif.Invariant
