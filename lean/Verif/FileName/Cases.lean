import Verif.FileName.Props
import Verif.FileName.PropsRead

/-! Concrete cases that meet the hypotheses of C68: two configurations that differ, in ways the name does not show, have the
same name; everything the theorems list then agrees. -/
namespace Verif.FileName

/-- A configuration, and one that differs in the tolerances of the ODE solver. -/
def caseA : Config := ⟨2, 10, 1, 1 / 100, 1 / 5, -1 / 2, 0, 0⟩

/-- See `caseA`. -/
def caseB : Config := ⟨2, 10, 1, 1 / 100, 1 / 5, -1 / 2, 1 / 10, 0⟩

example : caseA.nloops = caseB.nloops ∧ Same6 caseA.T caseB.T := by
  have h : filename distributed caseA = filename distributed caseB := by decide +kernel
  exact ⟨(c68_partial _ _ _ _ h).2.1, (c68_partial _ _ _ _ h).2.2.2.2.2.2.2.2.2.2.2.1⟩

/-- The build without the debugging option. -/
def caseBuild : Build := { distributed with debugSymm := false, phSymm := false }

example : Same6 caseA.U caseB.U := c68_directory_partial caseBuild caseA caseB rfl (by decide +kernel)

example : directory caseBuild (job caseBuild caseA) =
    directory caseBuild (job caseBuild { caseA with epsilon := 1 }) := (c68_gate_refuted caseBuild caseA 1).symm

example : distributed.sbe = distributed.sbe := c68_sbe_partial distributed distributed caseA caseB (by decide +kernel)

end Verif.FileName
