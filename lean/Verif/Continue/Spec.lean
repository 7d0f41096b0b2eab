import Verif.Continue.Model
import Verif.Hdf5.Spec

/-
What a user relies on when continuing a flow from a file, in terms of what can be read before and afterwards.
-/
namespace Verif.Continue

open Verif.Hdf5

/-- Everything that could be read from layers up to `it` can still be read. -/
def KeepsUpTo {V : Type} (it : Int) (before after : Option (File V)) : Prop :=
  ∀ f, before = some f → ∀ (j : Int) (data : List (Path × List V)), 0 ≤ j → j ≤ it → readState f j = .ok data →
    ∃ f', after = some f' ∧ readState f' j = .ok data

end Verif.Continue
