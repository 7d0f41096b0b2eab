import Verif.ImagFlow.PropsReal
import Verif.Imag.PropsCode

/-! A concrete case of C158: the interacting problem at the particle-hole symmetric point, started from the bare interaction
without the class K2 (`MAX_DIAG_CLASS == 1`) and without acceleration, for every regulator. -/
namespace Verif.ImagFlow
open Verif.Symmetries

/-- `MAX_DIAG_CLASS == 1`, no acceleration. -/
def plain (R : Type) [CommRing R] : Open R where
  k2 _ := 0
  accel ev _ := (ev.getLastD (0, 0)).2
  absV _ := none
  relV _ _ := none
  absS _ := none
  relS _ _ := none

theorem last_eq {R : Type} [CommRing R] [Algebra ℝ R] (ev : List (VF R × SF R)) : ∃ a : List ℝ, (ev.getLastD (0, 0)).2 =
    (List.zipWith (fun (r : ℝ) x => r • x.2) a ev).sum := by
  refine ⟨List.replicate (ev.length - 1) 0 ++ [1], ?_⟩
  rcases List.eq_nil_or_concat ev with rfl | ⟨l, x, rfl⟩
  · simp
  · simp only [List.concat_eq_append, List.length_append, List.length_singleton, Nat.add_sub_cancel, List.getLastD_concat]
    have : ∀ l : List (VF R × SF R), (List.zipWith (fun (r : ℝ) x => r • x.2) (List.replicate l.length 0 ++ [1])
        (l ++ [x])).sum = x.2 := by
      intro l
      induction l with
      | nil => simp
      | cons y l ih =>
        rw [List.length_cons, List.replicate_succ, List.cons_append, List.cons_append, List.zipWith_cons_cons,
          List.sum_cons, ih]
        simp
    exact (this l).symm

theorem plain_good {R : Type} [CommRing R] [StarRing R] [Algebra ℝ R] [StarModule ℝ R] (ph : Bool) (hr : ph = true → ∀ r : R, star r = r) :
    GoodOpen ph (plain R) where
  sym _ _ := sym_zero hr
  add _ _ := (add_zero 0).symm
  k2b _ := rfl
  accel ev _ := by
    obtain ⟨a, ha⟩ := last_eq ev
    exact ⟨a, [], by simpa [plain] using ha⟩

theorem plain_same : SameOpen (plain ℝ) (plain ℂ) where
  k2 _ := embV.map_zero.symm
  accel ev st := by
    simp only [plain]
    rcases List.eq_nil_or_concat ev with rfl | ⟨l, x, rfl⟩
    · exact embS.map_zero.symm
    · simp
  absV _ := rfl
  relV _ _ := rfl
  absS _ := rfl
  relS _ _ := rfl

/-- The bare vertex with real values. -/
def bareR (w : ℝ) : VF ℝ := fun _ _ s _ _ => if s = 0 then w else -w

theorem bareR_good (w : ℝ) : GoodV true (bareR w) where
  sym := by
    constructor
    · intro h c s α ν hs
      have : s = 0 ∨ s = 1 := by omega
      rcases this with rfl | rfl <;> simp [bareR]
    · intro h c s α ν hs
      have : s = 0 ∨ s = 1 := by omega
      rcases this with rfl | rfl <;> simp [bareR]
    · intro h; cases h
    · intro _ h c s α ν hs; simp [bareR]
    · intro h; cases h
    · intro _ h c s α ν hs; simp [bareR]
    · intro _ _ r; exact star_trivial r
  same _ := rfl

/-- Real storage: for every number of loops and steps the flow keeps the symmetries. -/
theorem case_flow (w T Gam : ℝ) (pos : Nat) (reg : Reg) (cfg : MfRG.Cfg) (tab : ODE.Tableau) (fp : ODE.FlowParam ℝ)
    (steps : List (ℝ × ℝ)) : GoodState true (flow ⟨pos, T, true, linesR reg ⟨0, 0, Gam, T, 0, 0⟩⟩ (plain ℝ) (bareR w) cfg
      tab fp steps (0, 0)) :=
  c158_flow rfl (c158_lines_real reg _) (plain_good true fun _ r => star_trivial r) (bareR_good w) cfg tab fp steps
    ⟨Odd.zero, GoodV.zero fun _ r => star_trivial r⟩

/-- The flow of the stored numbers is the flow of the complex numbers. -/
theorem case_real (w T Gam : ℝ) (pos : Nat) (reg : Reg) (cfg : MfRG.Cfg) (tab : ODE.Tableau) (fp : ODE.FlowParam ℝ)
    (steps : List (ℝ × ℝ)) :
    flow ⟨pos, T, false, linesC reg ⟨0, 0, Gam, T, 0, 0⟩⟩ (plain ℂ) (embV (bareR w)) cfg tab fp steps (emb (0, 0)) =
      emb (flow ⟨pos, T, true, linesR reg ⟨0, 0, Gam, T, 0, 0⟩⟩ (plain ℝ) (bareR w) cfg tab fp steps (0, 0)) :=
  c158_real_flow ⟨rfl, rfl, rfl, rfl, c158_stored reg _ rfl⟩ plain_same (bareR w) cfg tab fp steps (0, 0)

end Verif.ImagFlow
