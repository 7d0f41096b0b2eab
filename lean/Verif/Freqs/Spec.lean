import Verif.Freqs.Model

/-! Leg energies: what a frequency triple means in each convention, independent of any conversion. -/
namespace Verif.Freqs

/-- Energies of the legs `1', 2', 1, 2`. -/
structure Legs (K : Type) where
  o1 : K
  o2 : K
  i1 : K
  i2 : K
  deriving DecidableEq, Repr

/-- Real-frequency conventions (documented at r_vertex.hpp:532-563). -/
def legs {K : Type} [Field K] : Conv → Fr K → Legs K
  | .ch .a, x => ⟨x.v1 - x.w / 2, x.v2 + x.w / 2, x.v2 - x.w / 2, x.v1 + x.w / 2⟩
  | .ch .p, x => ⟨x.v1 + x.w / 2, -x.v1 + x.w / 2, x.v2 + x.w / 2, -x.v2 + x.w / 2⟩
  | .ch .t, x => ⟨x.v2 + x.w / 2, x.v1 - x.w / 2, x.v2 - x.w / 2, x.v1 + x.w / 2⟩
  | .f, x => ⟨x.w, x.v1, x.v2, x.w + x.v1 - x.v2⟩

/-- The largest even number not above half of `w`. -/
def IsHalfFloor (w f : Int) : Prop := f % 2 = 0 ∧ 2 * f ≤ w ∧ w < 2 * f + 4

/-- Imaginary-frequency conventions: `w/2` is replaced by its even floor `f` where it is subtracted from a
fermionic frequency and by `w - f` (the even ceiling) where it is added (bubble.hpp:173-197). -/
def legsM : Conv → Fr Int → Int → Legs Int
  | .ch .a, x, f => ⟨x.v1 - f, x.v2 + (x.w - f), x.v2 - f, x.v1 + (x.w - f)⟩
  | .ch .p, x, f => ⟨x.v1 + (x.w - f), f - x.v1, x.v2 + (x.w - f), f - x.v2⟩
  | .ch .t, x, f => ⟨x.v2 + (x.w - f), x.v1 - f, x.v2 - f, x.v1 + (x.w - f)⟩
  | .f, x, _ => ⟨x.w, x.v1, x.v2, x.w + x.v1 - x.v2⟩

/-- Parities of a frequency triple: in a channel convention the first is bosonic (even), the others are
fermionic (odd); in the purely fermionic one all are odd. -/
def Parity : Conv → Fr Int → Prop
  | .ch _, x => x.w % 2 = 0 ∧ x.v1 % 2 = 1 ∧ x.v2 % 2 = 1
  | .f, x => x.w % 2 = 1 ∧ x.v1 % 2 = 1 ∧ x.v2 % 2 = 1

/-- Transfer energies of the legs in the three channels. -/
def transfer {K : Type} [Field K] (l : Legs K) : Fr K := ⟨l.i2 - l.o1, l.o1 + l.o2, l.i2 - l.o2⟩

end Verif.Freqs
