import Verif.DiagTails.PropsLoop
import Verif.DiagTails.PropsBubble

/-! Concrete cases that meet the hypotheses of C129 and C130. -/
namespace Verif.DiagTails
open Complex MeasureTheory Filter Topology Verif.Tails Keldysh SpinSum

/-- A vertex that has reached its bare value plus a constant outside the box and a different value inside. -/
noncomputable def caseVertex (s c : Nat) (ν : ℝ) : ℂ := if |ν| < 1 then 7 else 3 + (c : ℂ) + 2 * s

theorem case_settled : Settled ⟨fun _ _ => 3, fun c s => c + 2 * s⟩ (-2) 2 caseVertex := by
  intro s c ν hν
  have : ¬ |ν| < 1 := by
    rcases hν with h | h
    · rw [abs_of_nonpos (by linarith)]; linarith
    · rw [abs_of_nonneg (by linarith)]; linarith
  simp [caseVertex, this]
  ring

example : IsTail (fun ν => Loop.closeSecond (propMatrix 's' ⟨1, 1 / 2, 1, 0, 0, 0⟩ 0 ν)
      (fun c => spinSum true fun s => caseVertex s c ν) 0 1) (-2) 2
    (loopKeldysh ⟨fun _ _ => 3, fun c s => c + 2 * s⟩ (-2) 2 (1 / 2 + 0 : ℝ) ((1 + 1) / 2) 's' 0 0 true) :=
  c129_loop ⟨1, 1 / 2, 1, 0, 0, 0⟩ 0 (-2) 2 (by norm_num) (by norm_num) (by norm_num) (by norm_num) (by norm_num)
    (by norm_num) 's' (.inr rfl) _ _ case_settled true 0 (by norm_num)

example : IsTail (matsubaraIntegrand false (imaginary false 'g' ⟨1, 1 / 2, 1, 0, 0, 0⟩ 0) fun _ => 1) (-2) 2
    (selfNoPHS (-2) 2 (1 / 2 + 0 : ℝ) ((1 + 1) / 2) 'g') :=
  c129_matsubara false ⟨1, 1 / 2, 1, 0, 0, 0⟩ 0 (-2) 2 (by norm_num) (by norm_num) (by norm_num) 'g' (.inl rfl)
    _ fun _ => rfl

example : IsTail (matsubaraIntegrand false (imaginary false 'g' ⟨1, 1 / 2, 1, 0, 0, 0⟩ 0)
      fun ν => spinSum true fun s => caseVertex s 0 ν) (-2) 2
    (loopMatsubara false ⟨fun _ _ => 3, fun c s => c + 2 * s⟩ (-2) 2 (1 / 2 + 0 : ℝ) ((1 + 1) / 2) 'g' 0 true
      + (3 : ℂ) * selfNoPHS (-2) 2 (1 / 2 + 0 : ℝ) ((1 + 1) / 2) 'g') :=
  c129_matsubara_loop_partial false ⟨1, 1 / 2, 1, 0, 0, 0⟩ 0 (-2) 2 (by norm_num) (by norm_num) (by norm_num) 'g' (.inl rfl)
    _ (fun _ => rfl) _ _ case_settled true

/-- One side of a bubble: values 1, 2 for the two spins and their sum. -/
def caseSide : Side ℂ := ⟨fun s => if s = 0 then 1 else if s = 1 then 2 else 3, fun _ => 0⟩

theorem case_spins : EqualSpins caseSide := by
  constructor <;> norm_num [caseSide]

/-- Vertices that differ inside the box. -/
example : ∃ x, IsTail (fun ν => scalar false .k1 .t 0 (if |ν| < 1 then ⟨fun _ => 5, fun _ => 0⟩ else caseSide) caseSide
      (bubbleValue true false false (prop2 true ⟨1, 0, 1, 0, 0, 0⟩ 0) (single2 true ⟨1, 0, 1, 0, 0, 0⟩ 0) 0 ν)) (-2) 2 x := by
  obtain ⟨x, -, h2⟩ := c98_matsubara_phs ⟨1, 0, 1, 0, 0, 0⟩ 0 0 (-2) 2 (by norm_num) 0 false false (by norm_num) (by norm_num)
  exact ⟨_, c130_bubble false .k1 .t 0 (by norm_num) (-2) 2 (by norm_num) _ _ h2
    (fun ν => if |ν| < 1 then ⟨fun _ => 5, fun _ => 0⟩ else caseSide) (fun _ => caseSide) caseSide caseSide (by
      intro ν hν
      have : ¬ |ν| < 1 := by
        rcases hν with h | h
        · rw [abs_of_nonpos (by linarith)]; linarith
        · rw [abs_of_nonneg (by linarith)]; linarith
      simp [this]) (fun _ _ => rfl) case_spins case_spins⟩

end Verif.DiagTails
