import Verif.Sde.PropsImag
import Verif.ImagFlow.Cases

/-! A concrete case of C160: the level in the middle of the interaction, propagators with `REG == 2`. -/
namespace Verif.Sde.Imag
open Verif.Symmetries Verif.ImagFlow

/-- Real values. -/
noncomputable def half (pos : Nat) (T Gam Λ U : ℝ) (ends : ℤ × ℤ) : Setup ℝ :=
  ⟨⟨pos, T, true, linesR .r2 ⟨0, -(U / 2), Gam, T, 0, 0⟩⟩, Λ, U, ends⟩

/-- Complex values. -/
noncomputable def halfC (pos : Nat) (T Gam Λ U : ℝ) (ends : ℤ × ℤ) : Setup ℂ :=
  ⟨⟨pos, T, false, linesC .r2 ⟨0, -(U / 2), Gam, T, 0, 0⟩⟩, Λ, U, ends⟩

theorem case_ready (pos : Nat) (T Gam Λ U : ℝ) (ends : ℤ × ℤ) : Ready (half pos T Gam Λ U ends) (bareR (-U / 2)) :=
  ⟨bareR_good _, c158_lines_real .r2 _⟩

theorem case_same (pos : Nat) (T Gam Λ U : ℝ) (ends : ℤ × ℤ) :
    SameSetup (half pos T Gam Λ U ends) (halfC pos T Gam Λ U ends) :=
  ⟨rfl, rfl, rfl, rfl, rfl, rfl, fun L v s => c160_lines _ U rfl L v s⟩

/-- The very first iteration of every calculation at imaginary frequencies with particle-hole symmetry breaks it. -/
theorem case_refuted (pos : Nat) (T Gam Λ U : ℝ) (hU : U ≠ 0) (ends : ℤ × ℤ) (first : Bool) (hartree : SF ℝ → ℝ)
    (hartree0 : ℝ) : ¬ GoodState true (iteration first (half pos T Gam Λ U ends) hartree (bareR (-U / 2)) (initial true hartree0)) :=
  (c160_refuted (case_ready pos T Gam Λ U ends) rfl hU first hartree (c160_initial (fun _ r => star_trivial r) hartree0)).2

end Verif.Sde.Imag
