import Verif.Expand.Props

/-! Concrete cases that meet the hypotheses of C133: the interpolation `lin`, which is exact at the grid points. -/
namespace Verif.Expand
open Freqs (Ch Fr)
open Vertex (KC Input Reader Full Conf initBare Basis)

example : ∃ Γ, (expandImpl 1 lin (readStored lin) id .a true (fun _ _ => 0)
      (whole (V := ℚ) (fun _ _ => 0) (peak ⟨1, by norm_num⟩ 1 2) (peak ⟨3, by norm_num⟩ 0 0) (peak ⟨1, by norm_num⟩ 5 7)))[1]?
    = some Γ := by
  obtain ⟨Γ, h, -⟩ := c133_nodes 1 lin lin_faithful (readStored lin) id .a true (fun _ _ => 0)
    (peak ⟨1, by norm_num⟩ 1 2) (peak ⟨3, by norm_num⟩ 0 0) (peak ⟨1, by norm_num⟩ 5 7) 1 (by norm_num)
  exact ⟨Γ, h⟩

/-- The bare vertex of the second Keldysh component in the channel a. -/
example : initBare (.keldysh) 1 (fun _ _ => 0) (3 : ℚ) (Keldysh.rotate .a true 1) 0 = initBare .keldysh 1 (fun _ _ => 0) 3 1 0 :=
  (c133_bare .keldysh 1 1 0 (3 : ℚ) .a true (by norm_num) (by decide)).2

end Verif.Expand
