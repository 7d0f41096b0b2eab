import Verif.Check.Props
import Verif.Check.PropsBlind

/-! Concrete cases that meet the hypotheses of C134. -/
namespace Verif.Check
open Verif.Symmetries
open Verif.Freqs (Ch Fr legs)

example : ∃ d, deviation ⟨true, true, false⟩ 0 wrong .a .k1 ⟨1, 0, 0, 0, 0⟩ = .ok d :=
  ⟨_, c134_crossing wrong_common (by decide) (by decide) ⟨by decide, by decide, by decide, rfl, rfl⟩ rfl⟩

example : ∃ d, deviation ⟨true, true, false⟩ 0 wrong .p .k1 ⟨1, 0, 0, 0, 0⟩ = .ok d :=
  ⟨_, c134_crossing_p wrong_common (by decide) ⟨by decide, by decide, by decide, rfl, rfl⟩ rfl⟩

example : ∃ d, deviation ⟨true, true, false⟩ 0 wrong .a .k2b ⟨0, 1, 0, 1, 1⟩ = .ok d :=
  ⟨_, c134_mixed wrong_common (by decide) ⟨by decide, by decide, by decide, rfl, by decide⟩ rfl⟩

example (r : ℚ) (h : printed (1 / 10 ^ 30 : ℚ) [4, 2] [1, 0] = some r) : (1 : ℚ) ≤ r * maxNorm [4, 2] :=
  (c134_printed (by positivity) (by simp) h).2 1 (by simp)

/-- There is such a value. -/
example : printed (1 / 10 ^ 30 : ℚ) [4, 2] [1, 0] = some (1 / 4) := by decide +kernel

example : printed (1 / 10 ^ 30 : ℚ) [0, 0] [1, 0] = none := (c134_silent (by positivity) (by simp) _).1

end Verif.Check
