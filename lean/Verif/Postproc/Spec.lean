import Verif.Postproc.Model

/-
Specification of the post-processing: which layers, where, and what is reported.
-/
namespace Verif.Postproc

/-- The layers of a run of which `last` is the last one that was saved, each exactly once. -/
def AllSaved (last : Int) (ls : List Nat) : Prop := ls.Nodup ∧ ∀ l : Nat, l ∈ ls ↔ (l : Int) ≤ last

/-- A table holds the values of a layer at the places of the layout [layer][frequency][internal index]. -/
def HoldsLayer (e : Ext) (t : List ℝ) (val : Nat → Nat → Nat → ℝ) (l : Nat) : Prop :=
  ∀ iv < e.nF, ∀ i < e.nIn, t[(l * e.nF + iv) * e.nIn + i]? = some (val l iv i)

/-- Linear interpolation of a table on the grid. -/
noncomputable def WGrid.interp (g : WGrid) (f : Int → ℝ) (vp : ℝ) : ℝ :=
  (1 - (g.weight vp).2) * f (g.weight vp).1 + (g.weight vp).2 * f ((g.weight vp).1 + 1)

/-- The Ward identity `-2 Im Sigma^R = Phi` (postprocessing.hpp:70-72) on the grid. -/
def WardIdentity (g : WGrid) (Phi : Int → ℝ) (sigma : ℝ → ℂ) : Prop :=
  ∀ vp, |vp| < g.wUpper → g.interp Phi vp = -2 * (sigma vp).im

/-- The relative deviation from the Ward identity, integrated over the grid. -/
noncomputable def wardDeviation (I : (ℝ → ℝ) → ℝ) (g : WGrid) (Phi : Int → ℝ) (sigma : ℝ → ℂ) : Option ℝ :=
  ratio (I fun vp => if |vp| < g.wUpper then g.interp Phi vp + 2 * (sigma vp).im else 0)
    (I fun vp => if |vp| < g.wUpper then 2 * (sigma vp).im else 0)

open Perturb

variable {A S : Type}

/-- The vertex `x ∘ Π_r ∘ y`: reducible in channel `r` only. -/
def prod [Zero A] (N : Numerics A S) (r : Ch) (x y : Vtx A) : Vtx A :=
  ⟨0, fun c k => if c = r then N.bubble r k x y else 0⟩

/-- The bare vertex: only an irreducible part. -/
def IsBare [Zero A] (x : Vtx A) : Prop := ∀ c k, x.red c k = 0

/-- The first-class part of a bubble with a bare vertex on the left: one side of the right vertex is at infinite
frequency, where only the irreducible part and the first two classes of the channel of the bubble survive; and the
bubble is additive in the right vertex. -/
structure RightLinear [Add A] (N : Numerics A S) (bare : Vtx A) : Prop where
  loc : ∀ r (x y : Vtx A), x.irred = y.irred → x.red r .k1 = y.red r .k1 → x.red r .k2 = y.red r .k2 →
    N.bubble r .k1 bare x = N.bubble r .k1 bare y
  add : ∀ r (x y : Vtx A), N.bubble r .k1 bare (x.plus y) = N.bubble r .k1 bare x + N.bubble r .k1 bare y

/-- The susceptibility of channel `r`: `Γ0∘Π_r∘Γ0 + Γ0∘Π_r∘Γ∘Π_r∘Γ0` (postprocessing.hpp:132-137). -/
def chiSpec [Add A] [Zero A] (N : Numerics A S) (Γ bare : Vtx A) (r : Ch) : A :=
  N.bubble r .k1 bare bare + N.bubble r .k1 bare (prod N r Γ bare)

end Verif.Postproc
