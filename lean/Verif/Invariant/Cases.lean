import Verif.Invariant.Props
import Verif.Heredity.Cases

/-! A concrete case of C150: the start of the flow at large Λ (bare interaction `u`, Hartree self-energy `u/2`, level at
`-u/2`), without the class K2 (`MAX_DIAG_CLASS == 1`) and without acceleration. -/
namespace Verif.Invariant
open Verif.Symmetries Verif.Heredity Verif.Propagator

/-- `MAX_DIAG_CLASS == 1`, no acceleration. -/
def plain : Open where
  k2 _ := 0
  accel ev _ := (ev.getLastD (0, 0)).2
  absV _ := none
  relV _ _ := none
  absS _ := none
  relS _ _ := none

theorem plain_good (ph : Bool) : GoodOpen ph plain where
  sym _ _ := sym_zero
  add _ _ := (add_zero 0).symm
  k2b _ := rfl
  accel ev st := by
    refine ⟨List.replicate (ev.length - 1) 0 ++ [1], [], ?_⟩
    simp only [List.zipWith_nil_left, List.sum_nil, add_zero, plain]
    rcases List.eq_nil_or_concat ev with rfl | ⟨l, x, rfl⟩
    · simp
    · simp only [List.concat_eq_append, List.length_append, List.length_singleton, Nat.add_sub_cancel, List.getLastD_concat]
      have : ∀ l : List (VF × SF), (List.zipWith (fun (r : ℝ) x => r • x.2) (List.replicate l.length 0 ++ [1])
          (l ++ [x])).sum = x.2 := by
        intro l
        induction l with
        | nil => simp
        | cons y l ih =>
          rw [List.length_cons, List.replicate_succ, List.cons_append, List.cons_append, List.zipWith_cons_cons,
            List.sum_cons, ih]
          simp
      exact (this l).symm

/-- The interacting problem at the symmetric point: for every number of loops the flow keeps the symmetries. -/
theorem case_flow (u Gam T : ℝ) (Δ : ℝ → ℝ) (cfg : MfRG.Cfg) (tab : ODE.Tableau) (fp : ODE.FlowParam ℝ)
    (steps : List (ℝ × ℝ)) : GoodState true (-u/2) (flow plain Δ ⟨0, -u/2, Gam, T, 0, 0⟩ (bare u).val cfg tab fp steps
      ((fun _ => (u/2 : ℝ), 0), 0)) := by
  refine c150_flow (p := ⟨0, -u/2, Gam, T, 0, 0⟩) (plain_good true) ⟨bare_sym u, fun _ => rfl⟩ (fun _ => rfl) cfg tab fp steps
    ⟨⟨fun _ => by simp, fun _ v => ?_⟩, GoodV.zero⟩
  simp only [Pi.zero_apply, neg_zero, and_true, Complex.star_def, Complex.conj_ofReal]
  push_cast; ring

end Verif.Invariant
