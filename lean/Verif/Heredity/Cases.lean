import Verif.Heredity.PropsLines
import Verif.Mpi.Cases
import Mathlib.Data.Set.Finite.Lattice

/-! A concrete case of C148 and C149: the second-order bubble of the bare interaction with the free propagators, on a grid
as the code builds it, on three processes. -/
namespace Verif.Heredity
open Verif.Symmetries Verif.Pipeline Verif.Reduce Verif.Propagator
open Verif.Freqs (Ch Fr legs)
open Verif.FreqGrid (keldyshGrid)

/-- The bare Keldysh vertex of strength `u`. -/
noncomputable def bare (u : ℝ) : Vertex ℝ ℂ :=
  ⟨fun _ _ s α _ => if twos α % 2 = 1 then (if s = 0 then (u : ℂ) else -u) else 0⟩

theorem bare_sym (u : ℝ) : Sym ⟨true, true, false⟩ (bare u) := by
  have h1 : ∀ α : Fin 4 → Bool, twos (α ∘ swapIn) = twos α := by decide +kernel
  have h2 : ∀ α : Fin 4 → Bool, twos (α ∘ swapOut) = twos α := by decide +kernel
  have h3 : ∀ α : Fin 4 → Bool, twos (α ∘ inOut) = twos α := by decide +kernel
  have hs : ∀ s, s < 2 → s = 0 ∨ s = 1 := by omega
  have hc : ∀ α, twos α % 2 = 1 → conjSign false α = 1 := by intro α h; simp [conjSign, h]
  refine ⟨?_, ?_, ?_, ?_, ?_, ?_, ?_⟩
  · intro h c s α ν hlt; rcases hs s hlt with rfl | rfl <;> simp [bare, h1]
  · intro h c s α ν hlt; rcases hs s hlt with rfl | rfl <;> simp [bare, h2]
  · intro _ h c s α ν hlt
    by_cases ht : twos α % 2 = 1
    · rcases hs s hlt with rfl | rfl <;> simp [bare, h3, ht, hc]
    · simp [bare, h3, ht]
  · intro h; cases h
  · intro _ _ h c s α ν hlt
    by_cases ht : twos α % 2 = 1
    · rcases hs s hlt with rfl | rfl <;> simp [bare, ht, hc]
    · simp [bare, ht]
  · intro h; cases h
  · intro h; cases h

theorem bare_free (u : ℝ) (c : Ch) : Free (bare u) c := ⟨fun _ _ _ _ _ _ => rfl, fun _ _ _ _ _ _ => rfl⟩

theorem bare_causal (u : ℝ) (c : Ch) : CausalLeg (bare u) c := by
  have hl : ∀ (c : Ch) (α : Fin 4 → Bool), (outerL c α).1 = (outerL c α).2 → innerL c α = (true, true) →
      ¬ twos α % 2 = 1 := by intro c; cases c <;> decide +kernel
  have hr : ∀ (c : Ch) (α : Fin 4 → Bool), (outerR c α).1 = (outerR c α).2 → innerR c α = (true, true) →
      ¬ twos α % 2 = 1 := by intro c; cases c <;> decide +kernel
  exact
    { zeroL := fun s _ α h1 h2 ν => if_neg (hl c α h1 h2)
      upperL := fun s _ α _ _ _ _ => Upper.const ((bare u).val false c s α 0)
      lowerL := fun s _ α _ _ _ _ => Upper.const (star ((bare u).val false c s α 0))
      zeroR := fun s _ α h1 h2 ν => if_neg (hr c α h1 h2)
      upperR := fun s _ α _ _ _ _ => Upper.const ((bare u).val true c s α 0)
      lowerR := fun s _ α _ _ _ _ => Upper.const (star ((bare u).val true c s α 0)) }

/-- There are orders of completion for every buffer. -/
theorem case_schedule (cls : Cls) (g : Grids ℝ) : ∃ l, Schedule cls g l := by
  have fin : {k : Key | k.Valid cls g}.Finite := by
    refine Set.Finite.subset (s := (fun q : Fin 2 × Fin (g.nw + 1) × Fin (g.nv + 1) × Fin (g.nv + 1) × Fin 16 =>
      (⟨q.1, q.2.1, q.2.2.1, q.2.2.2.1, q.2.2.2.2⟩ : Key)) '' Set.univ) (Set.finite_univ.image _) ?_
    rintro ⟨s, iw, iv, ivp, iK⟩ ⟨h1, h2, h3, h4⟩
    have hv : iv < g.nv + 1 ∧ ivp < g.nv + 1 := by
      cases cls <;> simp only [] at h4 <;> omega
    exact ⟨(⟨s, h1⟩, ⟨iw, by simp at h2; omega⟩, ⟨iv, hv.1⟩, ⟨ivp, hv.2⟩, ⟨iK, h3⟩), trivial, rfl⟩
  exact ⟨_, c38_sequential fin.toFinset.toList (fun k => by simp) (Finset.nodup_toList _)⟩

/-- A frequency grid. -/
noncomputable def grid (junk : Int → ℝ) : Grids ℝ :=
  gridsOf (keldyshGrid 30 0 5 401) (keldyshGrid 30 0 5 401) junk

/-- No self-energy. -/
noncomputable def noSE : ℝ → SE := fun _ => ⟨0, 0, 0⟩

/-- The second-order bubble with the free propagators of a symmetric level. -/
theorem case_second_order (c : Ch) (u Lam Gam T : ℝ) (hG : 0 < Gam) (hL : 0 ≤ Lam) (diff : Bool) (junk : Int → ℝ) :
    ∃ sched l f, Schedule .k1 (grid junk) l ∧
      call false .k1 ⟨true, true, false⟩ (1 / 10 ^ 10) (grid junk) c (input .k1 (grid junk) c (bare u) (bare u)
          (lineG ⟨Lam, 0, Gam, T, 0, 0⟩ noSE) (lineS ⟨Lam, 0, Gam, T, 0, 0⟩ noSE noSE) diff) 3 4 (fun z => z.re == 0 && z.im == 0)
        sched l = .ok f ∧
      ∀ k : Key, k.Valid .k1 (grid junk) →
        f k = (bubble (bare u) (bare u) (pairOf (lineG ⟨Lam, 0, Gam, T, 0, 0⟩ noSE)
          (lineS ⟨Lam, 0, Gam, T, 0, 0⟩ noSE noSE) diff)).val false c k.spin
          (bits k.iK) (legFun (legs (.ch c) (keyFreq .k1 (grid junk) k))) := by
  obtain ⟨l, hl⟩ := case_schedule .k1 (grid junk)
  have := c149_k1 (c := c) (p := ⟨Lam, 0, Gam, T, 0, 0⟩) (σ := noSE) (dσ := noSE)
    (diff := diff) (ε := 1 / 10 ^ 10) (bare_sym u) (bare_free u c) (bare_causal u c)
    ⟨fun _ => 0, 0, continuousOn_const, differentiableOn_const _, fun _ => rfl, by simp, by simp⟩
    (Upper.const 0) (by simp [noSE]) (by show 0 < Gam + Lam; linarith)
    (fun _ => ⟨by simp [PHSE, noSE], rfl, by simp [noSE], by simp [noSE]⟩)
    (by positivity) (c148_grid (by norm_num) (by norm_num) (by norm_num) (by norm_num) (by norm_num) (by norm_num) junk)
    false (ws := 3) (nodes := 4) (small := fun z => z.re == 0 && z.im == 0) (by norm_num) (by norm_num) (by simp)
    (Mpi.case_schedule _ _) hl
  obtain ⟨f, hf⟩ := this
  exact ⟨_, l, f, hl, hf⟩

end Verif.Heredity
