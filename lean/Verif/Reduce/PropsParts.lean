import Verif.Reduce.Props
import Mathlib.Data.Complex.Basic
import Mathlib.Tactic.FinCases

/-! C127: a vertex that differs from its mirror image; before the parts are put in order they are wrong. -/
namespace Verif.Reduce
open Verif.Symmetries
open Verif.Freqs (Ch Fr legs)

/-- The right legs of a channel. -/
def rightLegs : Ch → List (Fin 4)
  | .a => [1, 2]
  | .p => [2, 3]
  | .t => [0, 2]

/-- A left part that is the sum of the squared energies of the left legs, and the mirror image with the right
legs, both without the component that causality excludes. -/
noncomputable def sided : Vertex ℚ ℂ where
  val h c s α ν :=
    (if s = 0 then 1 else -1) * (if twos α % 2 = 0 then Complex.I else 1) * (if twos α = 4 then 0 else 1) *
      ((((if h then rightLegs c else leftLegs c).map fun k => ν k ^ 2).sum : ℚ) : ℂ)

theorem twos_perm (α : Fin 4 → Bool) (π : Equiv.Perm (Fin 4)) (h : π ∈ [swapIn, swapOut, inOut]) :
    twos (α ∘ π) = twos α := by
  simp only [List.mem_cons, List.not_mem_nil, or_false] at h
  have e0 : ∀ k, swapIn k = ![0, 1, 3, 2] k := by decide
  have e1 : ∀ k, swapOut k = ![1, 0, 2, 3] k := by decide
  have e2 : ∀ k, inOut k = ![2, 3, 0, 1] k := by decide
  cases h0 : α 0 <;> cases h1 : α 1 <;> cases h2 : α 2 <;> cases h3 : α 3 <;> rcases h with rfl | rfl | rfl <;>
    simp [twos, e0, e1, e2, h0, h1, h2, h3]

theorem sided_sym (ph : Bool) : Sym ⟨true, ph, false⟩ sided where
  crossIn h c s α ν hs := by
    have hs : s = 0 ∨ s = 1 := by omega
    have e0 : ∀ k, swapIn k = ![0, 1, 3, 2] k := by decide
    have ht := twos_perm α swapIn (by simp)
    have hf : sideFlip .a .t swapIn = true ∧ sideFlip .p .p swapIn = false ∧
      sideFlip .t .a swapIn = true := by decide
    cases c <;> cases h <;> rcases hs with rfl | rfl <;>
      simp [sided, ht, hf.1, hf.2.1, hf.2.2, crossed, leftLegs, rightLegs, e0, add_comm]
  crossOut h c s α ν hs := by
    have hs : s = 0 ∨ s = 1 := by omega
    have e0 : ∀ k, swapOut k = ![1, 0, 2, 3] k := by decide
    have ht := twos_perm α swapOut (by simp)
    have hf : sideFlip .a .t swapOut = false ∧ sideFlip .p .p swapOut = false ∧
      sideFlip .t .a swapOut = false := by decide
    cases c <;> cases h <;> rcases hs with rfl | rfl <;>
      simp [sided, ht, hf.1, hf.2.1, hf.2.2, crossed, leftLegs, rightLegs, e0, add_comm]
  conjK _ h c s α ν hs := by
    have hs : s = 0 ∨ s = 1 := by omega
    have e0 : ∀ k, inOut k = ![2, 3, 0, 1] k := by decide
    have ht := twos_perm α inOut (by simp)
    have hf : sideFlip .a .a inOut = true ∧ sideFlip .p .p inOut = true ∧
      sideFlip .t .t inOut = false := by decide
    have hc : twos α % 2 = 0 ∨ twos α % 2 = 1 := by omega
    have hq : ∀ q : ℚ, (starRingEnd ℂ) ((q : ℚ) : ℂ) = q := fun q => by
      have : ((q : ℚ) : ℂ) = (((q : ℚ) : ℝ) : ℂ) := by norm_cast
      rw [this, Complex.conj_ofReal]
    cases c <;> cases h <;> rcases hs with rfl | rfl <;> rcases hc with hc | hc <;> by_cases h4 : twos α = 4 <;>
      simp [sided, ht, hf.1, hf.2.1, hf.2.2, leftLegs, rightLegs, e0, hc, h4, conjSign, add_comm]
  conjM h := by cases h
  ph _ _ h c s α ν hs := by
    have hs : s = 0 ∨ s = 1 := by omega
    have hc : twos α % 2 = 0 ∨ twos α % 2 = 1 := by omega
    cases c <;> cases h <;> rcases hs with rfl | rfl <;> rcases hc with hc | hc <;> by_cases h4 : twos α = 4 <;>
      simp [sided, leftLegs, rightLegs, hc, h4, conjSign]
  tr h := by cases h
  real h := by cases h

theorem sided_causal (c : Ch) : Causal sided .k3 c := by
  intro h s _ iK h16 hv ν
  have : ∀ (c : Ch), ∀ iK < 16, vanishes c .k3 iK = true → twos (bits iK) = 4 := by decide +kernel
  have h4 := this c iK h16 hv
  simp [sided, h4]

/-- The hypotheses of `c127_sum` and `c127_reorder` are met by a vertex that differs from its mirror image. -/
example : Sym ⟨true, true, false⟩ sided ∧ Independent sided .k3 .a ∧ Causal sided .k3 .a ∧ GoodGrids grid3 ∧
    truth sided false .k3 grid3 .a ⟨0, 1, 1, 0, 1⟩ ≠ truth sided true .k3 grid3 .a ⟨0, 1, 1, 0, 1⟩ := by
  refine ⟨sided_sym true, trivial, sided_causal _, grid3_good, ?_⟩
  have hb : twos (bits 1) = 1 := by decide
  simp [truth, sided, hb, legFun, legs, keyFreq, grid3, leftLegs, rightLegs]
  norm_num

/-- The mirror-symmetric sum satisfies the hypotheses of `c127_exact`. -/
noncomputable def balanced : Vertex ℚ ℂ := ⟨fun h c s α ν => sided.val h c s α ν + sided.val (!h) c s α ν⟩

example : (∀ s α ν, balanced.val true .a s α ν = balanced.val false .a s α ν) ∧
    truth balanced false .k3 grid3 .a ⟨0, 1, 1, 0, 1⟩ ≠ 0 := by
  refine ⟨fun s α ν => by simp [balanced, add_comm], ?_⟩
  have hb : twos (bits 1) = 1 := by decide
  simp [truth, balanced, sided, hb, legFun, legs, keyFreq, grid3, leftLegs, rightLegs]

example (ph : Bool) : Sym ⟨true, ph, false⟩ balanced where
  crossIn h c s α ν hs := by
    have h1 := (sided_sym ph).crossIn h c s α ν hs
    have h2 := (sided_sym ph).crossIn (!h) c s α ν hs
    rw [Bool.not_xor] at h2
    simp only [balanced, mul_add]; rw [h1, h2]
  crossOut h c s α ν hs := by
    have h1 := (sided_sym ph).crossOut h c s α ν hs
    have h2 := (sided_sym ph).crossOut (!h) c s α ν hs
    rw [Bool.not_xor] at h2
    simp only [balanced, mul_add]; rw [h1, h2]
  conjK hk h c s α ν hs := by
    have h1 := (sided_sym ph).conjK rfl h c s α ν hs
    have h2 := (sided_sym ph).conjK rfl (!h) c s α ν hs
    rw [Bool.not_xor] at h2
    simp only [balanced, star_add, mul_add]; rw [h1, h2]
  conjM h := by cases h
  ph hk hp h c s α ν hs := by
    have h1 := (sided_sym ph).ph rfl hp h c s α ν hs
    have h2 := (sided_sym ph).ph rfl hp (!h) c s α ν hs
    simp only [balanced, star_add, mul_add]; rw [h1, h2]
  tr h := by cases h
  real h := by cases h

/-- C127, refuted for a single part: a left part of class `K3` that is not put in order holds wrong values, here
two instead of zero (right_hand_sides.hpp:300-301, 406-407 record and save the parts in this form). -/
theorem c127_part_refuted :
    ∃ (V : Vertex ℚ ℂ) (k : Key), Sym ⟨true, true, false⟩ V ∧ Independent V .k3 .a ∧ Causal V .k3 .a ∧
      k.Valid .k3 grid3 ∧ ∀ l, Schedule .k3 grid3 l →
        bubble false .k3 ⟨true, true, false⟩ 0 grid3 .a (truth V false .k3 grid3 .a) l k ≠
          truth V false .k3 grid3 .a k := by
  refine ⟨sided, ⟨0, 1, 1, 0, 1⟩, sided_sym true, trivial, sided_causal _,
    ⟨by decide, by decide, by decide, by decide, by decide⟩, ?_⟩
  intro l hl
  have hk : (⟨0, 1, 1, 0, 1⟩ : Key).Valid .k3 grid3 := ⟨by decide, by decide, by decide, by decide, by decide⟩
  obtain ⟨src, hsv, hat, hsm, e⟩ := bubble_entry (cfg := ⟨true, true, false⟩) (c := .a) (le_refl (0 : ℚ)) grid3_good
    (truth sided false .k3 grid3 .a) hl hk
  have hsrc : (⟨0, 1, 0, 1, 4⟩ : Key).Valid .k3 grid3 := ⟨by decide, by decide, by decide, by decide, by decide⟩
  have hat' : AtKey .k3 grid3 (keyTransf .k3 ⟨true, true, false⟩ 0 grid3 .a ⟨0, 1, 1, 0, 1⟩) ⟨0, 1, 0, 1, 4⟩ := by
    unfold AtKey; decide +kernel
  have hs : truth sided false .k3 grid3 .a src = truth sided false .k3 grid3 .a ⟨0, 1, 0, 1, 4⟩ := by
    rw [← interp_atKey grid3_good hsv hat (truth sided false .k3 grid3 .a),
      ← interp_atKey grid3_good hsrc hat' (truth sided false .k3 grid3 .a)]
  have hv : vanishing .k3 ⟨true, true, false⟩ .a
      (keyTransf .k3 ⟨true, true, false⟩ 0 grid3 .a ⟨0, 1, 1, 0, 1⟩) = false := by decide +kernel
  have hm : moves .k3 ⟨true, true, false⟩ 0 grid3 .a ⟨0, 1, 1, 0, 1⟩ = true := by decide +kernel
  have hp : (keyTransf .k3 ⟨true, true, false⟩ 0 grid3 .a ⟨0, 1, 1, 0, 1⟩).prefactor = 1 ∧
    (keyTransf .k3 ⟨true, true, false⟩ 0 grid3 .a ⟨0, 1, 1, 0, 1⟩).conj = true := by decide +kernel
  rw [e, hs, hv, hm]
  obtain ⟨hp1, hp2⟩ := hp
  generalize keyTransf .k3 ⟨true, true, false⟩ 0 grid3 .a ⟨0, 1, 1, 0, 1⟩ = y at hp1 hp2 ⊢
  have hb : twos (bits 1) = 1 := by decide
  have hb' : twos (bits 4) = 1 := by decide
  simp [applyRead, hp1, hp2, truth, sided, hb, hb', legFun, legs, keyFreq, grid3, leftLegs]

end Verif.Reduce
