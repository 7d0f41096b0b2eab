import Verif.Sde.Props
import Verif.Invariant.Cases

/-! A concrete case of C159: the parquet solver started from the bare vertex and the Hartree self-energy. -/
namespace Verif.Sde
open Verif.Symmetries Verif.Heredity Verif.Propagator Verif.Invariant

/-- Interaction `U`, level at `-U/2`, hybridization `Gam`, temperature `T`, with particle-hole symmetry. -/
noncomputable def atHalf (U Gam T Λ : ℝ) : Setup := ⟨true, U, Λ + Gam, (-30, 30), ⟨Λ, -(U / 2), Gam, T, 0, 0⟩⟩

/-- The bare vertex of the Keldysh formalism is `-U/2`. -/
theorem case_ready (U Gam T Λ : ℝ) : Ready (atHalf U Gam T Λ) (bare (-U / 2)).val :=
  ⟨⟨bare_sym _, fun _ => rfl⟩, fun _ => rfl, fun _ => rfl⟩

/-- The start: Hartree self-energy `U/2`. -/
noncomputable def start (U : ℝ) : SF × VF := ((fun _ => (U / 2 : ℝ), 0), 0)

theorem case_start (U Gam T Λ : ℝ) : GoodState (atHalf U Gam T Λ).ph (atHalf U Gam T Λ).p.eps (start U) := by
  refine ⟨⟨fun _ => by simp [start], fun _ v => ?_⟩, GoodV.zero⟩
  simp only [start, atHalf, Pi.zero_apply, neg_zero, and_true, Complex.star_def, Complex.conj_ofReal]
  push_cast; ring

/-- The solver with version 1 of the Schwinger–Dyson equation and acceleration writes symmetric states only. -/
theorem case_solver (U Gam T Λ acc mix : ℝ) (N : ℕ) (gam : List ((SF × VF) × (SF × VF)) → ℕ → ℝ)
    (relV relS : SF × VF → SF × VF → Option ℝ) :
    ∀ x ∈ (Parquet.solve (problem true (atHalf U Gam T Λ) (fun _ => 0) (bare (-U / 2)).val (Parquet.accelerated gam)
      relV relS) acc N mix (start U)).1.saved, GoodState true (-(U / 2)) x.state :=
  (c159_solver (case_ready U Gam T Λ) (c159_updates 1 gam).2 acc N mix (case_start U Gam T Λ)).2

/-- A level elsewhere is not kept. -/
theorem case_elsewhere : ¬ GoodS true 1 (computeSDE true ⟨true, 1, 1, (-1, 1), ⟨1, 1, 1, 1, 0, 0⟩⟩ (fun _ => 0) (bare 1).val
    (fun _ => -1, 0) 0) := by
  have h := c159_level_only (u := ⟨true, 1, 1, (-1, 1), ⟨1, 1, 1, 1, 0, 0⟩⟩) (bare := (bare 1).val) (V := 0)
    (σ := (fun _ => -1, 0)) true (fun _ => 0) rfl ⟨bare_sym _, fun _ => rfl⟩ GoodV.zero
    ⟨fun _ => by simp, fun _ v => by simp; norm_num⟩ rfl
  intro h'
  have := h.mp h'
  norm_num at this

end Verif.Sde
