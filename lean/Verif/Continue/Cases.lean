import Verif.Continue.Props

/-! Concrete cases that meet the hypotheses of C70. -/
namespace Verif.Continue
open Verif.Hdf5

/-- A new calculation with five layers. -/
example : ∃ f, startFlow (0 : Nat) ⟨2, 3, 0⟩ none 5 (constSnapshot 4) = (some f, .ok (.fresh (constSnapshot 4))) ∧
    readState f 0 = .ok (constSnapshot 4).stored := by
  obtain ⟨f, h1, h2, -⟩ := c70_new (fill := 0) (B := ⟨2, 3, 0⟩) 5 (constSnapshot 4) rfl (by decide) (by decide)
  exact ⟨f, h1, h2⟩

/-- Continuing from its layer 0, with a reconstruction that is always the same state. -/
example : ∃ f g data, startFlow (0 : Nat) ⟨2, 3, 0⟩ none 5 (constSnapshot 4) = (some f, .ok (.fresh (constSnapshot 4))) ∧
    continueFlow 0 ⟨2, 3, 0⟩ (fun _ => constSnapshot 4) (some f) 5 0 = (some g, .ok (.flows 0 data)) := by
  obtain ⟨f, h1, h2, -⟩ := c70_new (fill := 0) (B := ⟨2, 3, 0⟩) 5 (constSnapshot 4) rfl (by decide) (by decide)
  rcases c70_continue_partial (fill := 0) (B := ⟨2, 3, 0⟩) (fun _ => constSnapshot 4) f 5 0 (by decide) with
    ⟨g, d, -, h⟩ | ⟨e, h, -⟩ | ⟨h, -⟩
  · exact ⟨f, g, d, h1, h⟩
  · rw [h2] at h; cases h
  · exact absurd ⟨by decide, by decide⟩ h

end Verif.Continue
