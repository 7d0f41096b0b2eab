import Verif.ImagFlow.Model

/-! What the flow at imaginary frequencies is to keep. -/
namespace Verif.ImagFlow
open Verif.Symmetries

section
variable {R : Type} [CommRing R] [StarRing R] [Algebra ℝ R]

/-- A vertex with crossing symmetry, conjugation symmetry and time reversal that equals its mirror image; for `ph` its
values are real. -/
structure GoodV (ph : Bool) (V : VF R) : Prop where
  sym : Sym ⟨false, ph, false⟩ (⟨V⟩ : Vertex ℤ R)
  same : ∀ h, V h = V false

/-- Conjugation changes the sign of the frequency; for `ph` the stored imaginary part is odd. -/
def Odd (ph : Bool) (σ : SF R) : Prop := ∀ v, star (σ v) = (if ph then -1 else 1) * σ (-v)

/-- The propagators of self-energies with this property have it as well. -/
structure GoodLines (ph : Bool) (l : Lines R) : Prop where
  g : ∀ Λ v s, star (l.g Λ v s) = (if ph then -1 else 1) * l.g Λ (-v) ((if ph then -1 else 1) * star s)
  s : ∀ Λ v s, star (l.s Λ v s) = (if ph then -1 else 1) * l.s Λ (-v) ((if ph then -1 else 1) * star s)

/-- Requirements on what the model leaves open: extracting K2 keeps the symmetries, is additive, and leaves no K2b;
acceleration forms a linear combination of the self-energies it is given. -/
structure GoodOpen (ph : Bool) (o : Open R) : Prop where
  sym : ∀ V : VF R, Sym ⟨false, ph, false⟩ (⟨V⟩ : Vertex ℤ R) → Sym ⟨false, ph, false⟩ (⟨o.k2 V⟩ : Vertex ℤ R)
  add : ∀ V W, o.k2 (V + W) = o.k2 V + o.k2 W
  k2b : ∀ V, o.k2 (mirror (o.k2 V)) = 0
  accel : ∀ ev st, ∃ a b : List ℝ,
    o.accel ev st = (List.zipWith (fun (r : ℝ) x => r • x.2) a ev).sum + (List.zipWith (fun (r : ℝ) x => r • x.2) b st).sum

/-- The symmetric states. -/
def GoodState (ph : Bool) (y : SF R × VF R) : Prop := Odd ph y.1 ∧ GoodV ph y.2

end
end Verif.ImagFlow
