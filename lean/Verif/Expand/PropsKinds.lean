import Verif.Expand.Props

/-! C133: which channels the two kinds of differentiated halves contribute. -/
namespace Verif.Expand
open Verif.Vertex Verif.Symmetries
open Verif.Freqs (Ch Fr)

variable {G F V : Type} [AddCommGroup V]

/-- C133 (halves).  For a vertex of either differentiated kind, all four parts depend on the irreducible part and on the
channel of the bubble only; whatever the other two channels hold is ignored. -/
theorem c133_halves (cf : Conf F) (N : Numerics G F V) (s : Kind) (hs : s = .diffLeft ∨ s = .diffRight)
    (hst : cf.static = false) (E E' : List (Full (Rv G V) V)) (spin : Nat) (b : Ch) (x : Input F) (Γ Γ' : Full (Rv G V) V)
    (h : E[spin]? = some Γ) (h' : E'[spin]? = some Γ') (hi : Γ.irred = Γ'.irred) (hb : Γ.ch b = Γ'.ch b) (q : Part) :
    partOf cf N s E spin b x q = partOf cf N s E' spin b x q := by
  have hI : partsIrreducible s = false := by rcases hs with rfl | rfl <;> rfl
  have hO : partsOwn s = true := by rcases hs with rfl | rfl <;> rfl
  unfold partOf
  rw [h, h', hI, hO]
  cases q <;> simp [part, leftSame, rightSame, leftDiff, rightDiff, hst, hi, hb, rvLeftSame, rvRightSame, rvLeftDiff, rvRightDiff,
    readExpanded]

/-- Two vertices that differ in channel `p` only meet the hypotheses for a bubble in channel `a`. -/
example (Γ : Full (Rv G V) V) (y : Rv G V) : let Γ' := { Γ with p := y }
    Γ.irred = Γ'.irred ∧ Γ.ch .a = Γ'.ch .a ∧ Γ'.ch .p = y ∧ [Γ][0]? = some Γ ∧ [Γ'][0]? = some Γ' := ⟨rfl, rfl, rfl, rfl, rfl⟩

end Verif.Expand
