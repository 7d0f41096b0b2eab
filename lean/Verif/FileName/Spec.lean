import Verif.FileName.Model

/-
Which parameters matter, and what it means for a printed number to determine its value.
-/
namespace Verif.FileName

/-- The two numbers print alike: same sign and equal when rounded to six decimals. -/
def Same6 (x y : ℚ) : Prop := (x < 0 ↔ y < 0) ∧ micro x = micro y

/-- Two runs describe the same physical problem with the same approximations. -/
def SamePhysics (b b' : Build) (c c' : Config) : Prop :=
  c.U = c'.U ∧ c.T = c'.T ∧ c.Gamma = c'.Gamma ∧ c.epsilon = c'.epsilon ∧ c.nloops = c'.nloops ∧
    b.REG = b'.REG ∧ b.glbV = b'.glbV ∧ b.lambdaIni = b'.lambdaIni ∧ b.lambdaFin = b'.lambdaFin ∧
    b.seCorr = b'.seCorr ∧ b.maxDiag = b'.maxDiag

/-- C68, in full: runs that differ physically have different files. -/
def Distinguishes : Prop := ∀ b b' c c', path b c = path b' c' → SamePhysics b b' c c'

end Verif.FileName
