import Verif.Bse.Props
import Mathlib.Tactic.Module

/-! # C144: the calls within one step, and the step with single-boson exchange -/
namespace Verif.Bse

open Keldysh (Ch)
open Multiloop (others total)

variable {V : Type} [NormedAddCommGroup V] [NormedSpace ℝ V]

/-- **C144** (letters).  A call with the letter of a channel overwrites this channel and no other; a call with any other
character, such as the zero at the end of the string, changes nothing. -/
theorem c144_letters (f T : Ch → V) :
    (∀ cr ∈ [('a', Ch.a), ('p', Ch.p), ('t', Ch.t)], bubbleInto f T cr.1 cr.2 = f cr.2 ∧
      ∀ r, r ≠ cr.2 → bubbleInto f T cr.1 r = T r) ∧
    ∀ c, c ≠ 'a' → c ≠ 'p' → c ≠ 't' → bubbleInto f T c = T := by
  constructor
  · intro cr h
    simp only [List.mem_cons, List.not_mem_nil, or_false] at h
    rcases h with rfl | rfl | rfl <;> simp +contextual [bubbleInto, channelOf]
  · intro c h1 h2 h3
    unfold bubbleInto channelOf
    split <;> simp_all

/-- **C144** (step with single-boson exchange).  If K2 and K2b are different components, the K2 component of each result is
the one of the equation with the irreducible vertex on the right, the K2b component the one of the equation with the
irreducible vertex on the left, and the remaining components are those of the mean. -/
theorem c144_exchange (s : Step V) (L0 R0 red : Ch → V) (r : Ch) (h1 : ∀ x, s.k2 (s.k2 x) = s.k2 x)
    (h2 : ∀ x, s.k2b (s.k2b x) = s.k2b x) (h3 : ∀ x, s.k2 (s.k2b x) = 0) (h4 : ∀ x, s.k2b (s.k2 x) = 0) :
    let L := s.pi r (s.bare + others r red) (s.bare + total red)
    let R := s.pi r (s.bare + total red) (s.bare + others r red)
    let m := (computeBSE s true L0 R0 red).mean r
    s.k2 m = s.k2 R ∧ s.k2b m = s.k2b L ∧
      m - s.k2 m - s.k2b m = (1 / 2 : ℝ) • (L - s.k2 L - s.k2b L) + (1 / 2 : ℝ) • (R - s.k2 R - s.k2b R) := by
  intro L R m
  have e : m = (0.5 : ℝ) • ((L - s.k2 L + s.k2 R) + (R - s.k2b R + s.k2b (L - s.k2 L + s.k2 R))) := by
    simp only [m, computeBSE, overChannels_eq, if_true]
    rfl
  have half (x : V) : (0.5 : ℝ) • (x + x) = x := by rw [← two_smul ℝ x, smul_smul]; norm_num
  have a : s.k2 m = s.k2 R := by
    rw [e]
    simp only [map_smul, map_add, map_sub, h1, h3, h4, sub_self, zero_add, sub_zero, add_zero]
    exact half _
  have b : s.k2b m = s.k2b L := by
    rw [e]
    simp only [map_smul, map_add, map_sub, h2, h4, sub_self, zero_add, sub_zero, add_zero]
    exact half _
  refine ⟨a, b, ?_⟩
  rw [a, b, e]
  simp only [map_add, map_sub, h4, sub_zero, add_zero]
  module

/-- Two components of a pair serve as K2 and K2b. -/
example : ∃ k2 k2b : ℝ × ℝ →L[ℝ] ℝ × ℝ, (∀ x, k2 (k2 x) = k2 x) ∧ (∀ x, k2b (k2b x) = k2b x) ∧ (∀ x, k2 (k2b x) = 0) ∧
    (∀ x, k2b (k2 x) = 0) ∧ k2 (1, 2) = (1, 0) ∧ k2b (1, 2) = (0, 2) :=
  ⟨(ContinuousLinearMap.inl ℝ ℝ ℝ).comp (ContinuousLinearMap.fst ℝ ℝ ℝ),
    (ContinuousLinearMap.inr ℝ ℝ ℝ).comp (ContinuousLinearMap.snd ℝ ℝ ℝ), by simp, by simp, by simp, by simp, by simp, by simp⟩

end Verif.Bse
