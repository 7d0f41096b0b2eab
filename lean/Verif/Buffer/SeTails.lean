import Verif.Buffer.Model

/-! The report on the tails of the self-energy. -/
namespace Verif.Buffer
open Verif

/-- `SelfEnergy::analyze_tails`, selfenergy.hpp:331-345, called by `State::analyze_tails`, state.hpp:195-200: largest modulus at the first
frequency (axis 1 of the shape Keldysh component, frequency, internal index) divided by the largest modulus; `none` is NaN (0/0). -/
def seTails {α : Type} [Zero α] (absf : α → ℚ) (emb : ℚ → α) (data : List α) (dims order : List Nat) : Res (Option ℚ) := do
  let total := (data.map absf).foldl max 0
  let along ← Collapse.maxabs absf emb data dims 1 order
  let x ← Collapse.toRes along[0]?
  return if total = 0 then none else some (x / total)

end Verif.Buffer
