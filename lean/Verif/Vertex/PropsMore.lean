import Verif.Vertex.Props

/-
C45 (static feedback, right side), C46 (domain of the irreducible part).
-/
namespace Verif.Vertex
open Freqs (Ch Fr)
variable {R F V : Type} [AddCommGroup V]

/-- **C46** (domain). The irreducible part of a vertex can be read for the components of the formalism only: one in the
Matsubara formalism and sixteen otherwise, internal indices below the number stored, three spin combinations. The combination
that vanishes is not checked. -/
theorem c46_domain (basis : Basis) (nIn : Nat) (b : Bare V) (iK iIn spin : Nat) :
    (irredVal basis nIn b iK iIn spin = .error .assertion ↔
      3 ≤ spin ∨ (spin ≤ 1 ∧ ((if basis = .matsubara then 1 else 16) ≤ iK ∨ nIn ≤ iIn))) ∧
    irredVal basis nIn b iK iIn 2 = .ok 0 ∧
    irredVal basis nIn b iK iIn spin ≠ .error .undefined := by
  have hn : nComp basis = if basis = .matsubara then 1 else 16 := by cases basis <;> rfl
  rw [← hn]
  unfold irredVal
  by_cases h : iK < nComp basis ∧ iIn < nIn
  · simp only [h, and_self, if_true]
    rcases spin with _ | _ | _ | s
    · simp; omega
    · simp; omega
    · simp
    · simp
  · simp only [h, if_false]
    rcases spin with _ | _ | _ | s
    · simp; omega
    · simp; omega
    · simp
    · simp

/-- What static feedback adds: the first classes of the other channels at zero transfer (at twice the chemical potential in the
particle-particle channel). -/
def staticSum (cf : Conf F) (rd : Reader R F V) (Γ : Full R V) (b : Ch) (x : Input F) : V :=
  ((if b = .a then 0 else rd .k1 Γ.a Γ.t ⟨x.iK, x.spin, x.iIn, ⟨cf.zero, x.f.v1, x.f.v2⟩⟩) +
   (if b = .p then 0 else rd .k1 Γ.p Γ.p ⟨x.iK, x.spin, x.iIn, ⟨cf.twoMu, x.f.v1, x.f.v2⟩⟩)) +
   (if b = .t then 0 else rd .k1 Γ.t Γ.a ⟨x.iK, x.spin, x.iIn, ⟨cf.zero, x.f.v1, x.f.v2⟩⟩)

/-- **C45** (static feedback). With static feedback both sides of a bubble see the bare vertex, the first class of the
channel of the bubble, and the first classes of the other two channels at fixed transfer. -/
theorem c45_static_partial (cf : Conf F) (rd : Reader R F V) (Γ : Full R V) (b : Ch) (x : Input F)
    (hs : cf.static = true) (hd : cf.maxDiag = 1) :
    leftSame cf rd Γ b false x =
      .ok (Γ.irred x.iK x.iIn x.spin + (rd .k1 (Γ.ch b) (Γ.crossing b) x + staticSum cf rd Γ b x)) ∧
    rightSame cf rd Γ b false x =
      .ok (Γ.irred x.iK x.iIn x.spin + (rd .k1 (Γ.ch b) (Γ.crossing b) x + staticSum cf rd Γ b x)) := by
  have e : staticPart cf rd Γ b x = staticSum cf rd Γ b x := by
    cases b <;> simp [staticPart, staticSum]
  simp [leftSame, rightSame, rvLeftSame, rvRightSame, hs, hd, e]

/-- **C45** (static feedback switched off, or higher classes kept). Then only the channel of the bubble enters. -/
theorem c45_static_off_partial (cf : Conf F) (rd : Reader R F V) (Γ : Full R V) (b : Ch) (x : Input F)
    (h : cf.static = false ∨ 2 ≤ cf.maxDiag) :
    leftSame cf rd Γ b false x = .ok (Γ.irred x.iK x.iIn x.spin + rvLeftSame cf rd (Γ.ch b) (Γ.crossing b) x) ∧
    rightSame cf rd Γ b false x = .ok (Γ.irred x.iK x.iIn x.spin + rvRightSame cf rd (Γ.ch b) (Γ.crossing b) x) := by
  have e : (cf.static && decide (cf.maxDiag ≤ 1)) = false := by
    rcases h with h | h
    · simp [h]
    · simp only [Bool.and_eq_false_imp, decide_eq_false_iff_not]; intro _; omega
  simp [leftSame, rightSame, e]

end Verif.Vertex
