import Verif.Hdf5.Props
import Verif.Hdf5.PropsCrash

/-! Concrete cases that meet the hypotheses of C51 – C53 and C79: a file for five layers, of which 0, 3 and 1 have been
written and 3 written once more. -/
namespace Verif.Hdf5

/-- The calls. -/
def caseCalls : List (Call Nat) :=
  .create 5 (constSnapshot 7) false ::
    [((3 : Int), constSnapshot 8, false), (1, constSnapshot 9, false), (3, constSnapshot 10, true)].map
      (fun x => .add x.1 x.2.1 x.2.2)

theorem case_sane : ∀ c ∈ caseCalls, c.Sane := by
  intro c hc
  simp [caseCalls] at hc
  rcases hc with rfl | rfl | rfl | rfl <;> simp [Call.Sane, constSnapshot]

theorem case_history : ∃ f, history (0 : Nat) ⟨2, 3, 0⟩ none caseCalls = (some f, none) := by
  obtain ⟨disk, hd⟩ := history_adds_ok (fill := 0) (B := ⟨2, 3, 0⟩) (constSnapshot 7) rfl 5 (by decide) (by decide)
    [((3 : Int), constSnapshot 8, false), (1, constSnapshot 9, false), (3, constSnapshot 10, true)] (by simp [constSnapshot])
  obtain ⟨f, rfl, _⟩ := c51_read_back caseCalls case_sane disk hd
  exact ⟨f, hd⟩

/-- Layer 3 holds the state written last, layer 1 the one written to it. -/
example : ∃ f, history (0 : Nat) ⟨2, 3, 0⟩ none caseCalls = (some f, none) ∧
    readState f 3 = .ok (constSnapshot 10).stored ∧ readState f 1 = .ok (constSnapshot 9).stored ∧
    checkConvergence (some f) = .ok (true, 3) := by
  obtain ⟨f, hf⟩ := case_history
  obtain ⟨f', h', hr, _⟩ := c51_read_back caseCalls case_sane _ hf
  cases h'
  exact ⟨f, hf, hr 3 _ rfl, hr 1 _ rfl,
    c53_partial.2.2 caseCalls _ _ case_sane hf rfl⟩

/-- The configuration read back is the one of the created file. -/
example : ∃ f cfg, history (0 : Nat) ⟨2, 3, 0⟩ none caseCalls = (some f, none) ∧ readConfig f = .ok cfg ∧ cfg.U = some 7 := by
  obtain ⟨f, hf⟩ := case_history
  obtain ⟨f', cfg, h', h1, -, h2, -⟩ := c79_partial caseCalls _ _ case_sane hf rfl
  cases h'
  exact ⟨f, cfg, hf, h1, h2⟩

/-- A further state can be added to layer 4. -/
example : ∃ f g, history (0 : Nat) ⟨2, 3, 0⟩ none caseCalls = (some f, none) ∧
    addState 0 ⟨2, 3, 0⟩ (some f) 4 (constSnapshot 11) false = (some g, none) := by
  obtain ⟨f, hf⟩ := case_history
  obtain ⟨g, hg⟩ := c53_partial.2.1 caseCalls _ _ 4 (constSnapshot 11) false case_sane hf rfl (by decide) (by decide)
    (fun _ => rfl)
  exact ⟨f, g, hf, hg⟩

/-- The window of a crash while layer 4 is added. -/
example : ∃ f₀ k f b, history (0 : Nat) ⟨2, 3, 0⟩ none caseCalls = (some f₀, none) ∧
    crash 0 ⟨2, 3, 0⟩ (some f₀) (.add 4 (constSnapshot 11) false) k = some f ∧ checkConvergence (some f) = .ok (b, 4) := by
  obtain ⟨f₀, hf⟩ := case_history
  obtain ⟨k, f, b, h1, h2, -⟩ := c52_window caseCalls case_sane f₀ _ hf rfl 4 (by decide) (constSnapshot 11) false
    (fun _ => rfl)
  exact ⟨f₀, k, f, b, hf, h1, h2⟩

/-- A crash before the first of these writes: the file still reports layer 3, and that layer is complete. -/
example (f₀ f : File Nat) (b : Bool) (h0 : history (0 : Nat) ⟨2, 3, 0⟩ none caseCalls = (some f₀, none)) (k : Nat)
    (hf : crash 0 ⟨2, 3, 0⟩ (some f₀) (.add 4 (constSnapshot 11) false) k = some f)
    (hl : checkConvergence (some f) = .ok (b, 3)) : readState f 3 = .ok (constSnapshot 10).stored := by
  obtain ⟨t, s', ht, -, hs, hr⟩ := c52_partial caseCalls case_sane _ h0 4 (by decide) (constSnapshot 11) false k f hf b 3 hl
    (by decide)
  cases ht
  cases hs
  exact hr

end Verif.Hdf5
