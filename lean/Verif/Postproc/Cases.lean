import Verif.Postproc.Props

/-! Concrete cases that meet the hypotheses of C135 and C137: ten layers, of which layers 0 to 6 have been saved. -/
namespace Verif.Postproc

example : ∃ ls, suscLayers 10 6 = .ok ls ∧ AllSaved 6 ls := c137_susceptibilities 10 6 (by decide)

example : ∃ ls, sliceLayers 10 6 = .ok ls ∧ AllSaved 6 ls := c137_slices 10 6 (by decide) (by decide)

example : ∃ ls, sumRuleLayers 10 6 = .ok ls ∧ AllSaved 5 ls := by
  obtain ⟨ls, h, -, h'⟩ := c137_before_last_partial 10 6 (by decide) (by decide) (by decide)
  exact ⟨ls, h, h'⟩

example : sumRuleLayers 10 (-1) = .error .exception := (c137_nothing_saved 10 (by decide)).2.1

example : ∃ ls, kkLayers 10 6 = .ok ls ∧ AllSaved 5 ls :=
  c137_kramers_kronig_partial 10 6 (by decide) (by decide) (by decide) (by decide)

example : slicePoint (fun i => if i = 15 then 0 else (i : ℂ)) 7 = 7 := by
  rw [c137_slice_components _ (by simp) 7 (by decide)]; simp

example : ∃ vs ims phs, phiTables ⟨10, 4, 1⟩ 6 (fun l iv i => (1 + l + iv + i : ℝ)) (fun _ _ _ => 2) (fun l _ _ => l) = .ok (vs, ims, phs) := by
  obtain ⟨a, b, c, h, -⟩ := c135_tables_partial ⟨10, 4, 1⟩ 6 (by decide) (by decide) (by decide)
    (fun l iv i => (1 + l + iv + i : ℝ)) (fun _ _ _ => 2) (fun l _ _ => l) rfl
  exact ⟨a, b, c, h⟩

end Verif.Postproc
