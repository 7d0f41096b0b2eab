import Verif.Symmetries.Reads
import Mathlib.Algebra.Order.Field.Basic
import Mathlib.Tactic.Linarith
import Mathlib.Tactic.NormNum
import Mathlib.Data.Complex.Basic

namespace Verif.Symmetries
open Verif.Freqs (Ch Fr halfFloor)
open Verif.Keldysh (iKToAlphas alphasToIK)

instance : Fintype Ch := ⟨{Ch.a, Ch.p, Ch.t}, fun c => by cases c <;> simp⟩
instance : Fintype KClass := ⟨{.k1, .k2, .k2b, .k3}, fun c => by cases c <;> simp⟩

/-! ### C36: component tables -/

/-- Every entry exists and is either "vanishing" or one of the independent components, all of which occur. -/
theorem c36_entries :
    (∀ (c : Ch) (k : KClass), ∀ s < 2, ∀ iK < 16,
      ∃ j ∈ component c k s iK, -1 ≤ j ∧ j < k.count) ∧
    (∀ (c : Ch) (k : KClass), ∀ s < 2, ∀ j : Nat, (j : Int) < k.count →
      ∃ iK < 16, component c k s iK = some (j : Int)) := by
  refine ⟨?_, ?_⟩
  · have h : ∀ (c : Ch) (k : KClass), ∀ s < 2, ∀ iK < 16, ((component c k s iK).any
      (fun j => decide (-1 ≤ j ∧ j < k.count))) = true := by decide +kernel
    intro c k s hs iK hi
    have := h c k s hs iK hi
    cases hc : component c k s iK with
    | none => rw [hc] at this; cases this
    | some j => rw [hc] at this; exact ⟨j, rfl, by simpa using this⟩
  · have h : ∀ (c : Ch) (k : KClass), ∀ s < 2, ∀ j : Nat, j < 6 → (j : Int) < k.count →
      ((List.range 16).any fun iK => component c k s iK == some (j : Int)) = true := by decide +kernel
    intro c k s hs j hj
    have h6 : j < 6 := by cases k <;> simp [KClass.count] at hj <;> omega
    have := h c k s hs j h6 hj
    simpa using this

/-- The entries marked as vanishing are exactly those excluded by causality. -/
theorem c36_vanishing : ∀ (c : Ch) (k : KClass), ∀ s < 2, ∀ iK < 16,
    (component c k s iK = some (-1) ↔ vanishes c k iK = true) := by
  decide +kernel

/-- Two indices are assigned the same independent component exactly when they are related by symmetry. -/
theorem c36_classes : ∀ (c : Ch) (k : KClass), ∀ s < 2, ∀ i < 16, ∀ j < 16,
    vanishes c k i = false → (component c k s i = component c k s j ↔ Related c k i j) := by
  have h : ∀ (c : Ch) (k : KClass), ∀ s < 2, ((List.range 16).all fun i => (List.range 16).all fun j =>
      vanishes c k i || (decide (component c k s i = component c k s j) == ((keepClass c k).any fun π =>
        decide (reduced c k (ofBits (bits i ∘ π)) = reduced c k j)))) = true := by decide +kernel
  intro c k s hs i hi j hj hv
  have h1 := h c k s hs
  rw [List.all_eq_true] at h1
  have h2 := h1 i (List.mem_range.2 hi)
  rw [List.all_eq_true] at h2
  have h3 := h2 j (List.mem_range.2 hj)
  rw [hv, Bool.false_or, beq_iff_eq] at h3
  rw [← decide_eq_true_iff (p := component c k s i = component c k s j), h3]
  simp [Related]

theorem comp_T2 : ∀ (c : Ch) (k : KClass), ∀ i < 16, c ≠ .p → k ≠ .k2b →
    component (crossed c) k 0 (alphasToIK (swapAt (iKToAlphas i) 0 1)) = component c k 1 i := by
  decide +kernel

theorem comp_T1p : ∀ (k : KClass), ∀ i < 16, k ≠ .k2b →
    component .p k 0 (alphasToIK (swapAt (iKToAlphas i) 2 3)) = component .p k 1 i := by
  decide +kernel

theorem comp_b : ∀ i < 16,
    component .a .k2 0 (alphasToIK (swapAt (iKToAlphas (alphasToIK (swapAt (iKToAlphas i) 2 3))) 0 1)) =
      component .a .k2b 0 i ∧
    component .t .k2 0 (alphasToIK (swapAt (iKToAlphas (alphasToIK (swapAt (iKToAlphas i) 2 3))) 0 1)) =
      component .t .k2b 0 i ∧
    component .t .k2 0 (alphasToIK (swapAt (iKToAlphas i) 2 3)) = component .a .k2b 1 i ∧
    component .a .k2 0 (alphasToIK (swapAt (iKToAlphas i) 2 3)) = component .t .k2b 1 i ∧
    component .p .k2 0 (alphasToIK (swapAt (swapAt (iKToAlphas i) 0 2) 1 3)) = component .p .k2b 0 i ∧
    component .p .k2 0 (alphasToIK (swapAt (iKToAlphas (alphasToIK
      (swapAt (swapAt (iKToAlphas i) 0 2) 1 3))) 2 3)) = component .p .k2b 1 i := by
  decide +kernel

/-- The transformation listed for a class and spin component leads to the stored spin component, to an index
with the same independent component, and from `K2b` to `K2` with the left and right sides exchanged: the one
fermionic frequency on which the stored function depends is the one of the requested function. -/
theorem c36_transformation {K : Type} [CommRing K] (cfg : Cfg) (hk : cfg.keldysh = true) (c : Ch) (k : KClass)
    (x : Ind K) (hc : x.ch = c) (hs : x.spin < 2) (h16 : x.iK < 16) :
    ∃ i y, compTransf c k x.spin = some i ∧ Ti cfg (fun _ => 0) i x = .ok y ∧ y.spin = 0 ∧ y.iK < 16 ∧
      component y.ch (if k = .k2b then .k2 else k) y.spin y.iK = component c k x.spin x.iK ∧
      y.asym = xor x.asym (decide (k = .k2b)) ∧
      y.f.v1 = (if k = .k2b then x.f.v2 else x.f.v1) := by
  have hs' : x.spin = 0 ∨ x.spin = 1 := by omega
  rcases x with ⟨iK, s, ⟨w, v1, v2⟩, c', p, cj, as⟩
  simp only at hc hs hs' h16
  subst hc
  have l1 := lt_swapIn _ h16; have l2 := lt_swapOut _ h16; have l3 := lt_inOut _ h16
  have l4 := lt_swapIn _ l3; have l5 := lt_swapOut _ l1
  obtain ⟨b1, b2, b3, b4, b5, b6⟩ := comp_b _ h16
  have t2 := fun (k : KClass) (hb : k ≠ .k2b) => comp_T2 .a k _ h16 (by decide) hb
  have t2' := fun (k : KClass) (hb : k ≠ .k2b) => comp_T2 .t k _ h16 (by decide) hb
  have t1 := fun (k : KClass) (hb : k ≠ .k2b) => comp_T1p k _ h16 hb
  rcases hs' with rfl | rfl
  · cases k
    case k2b =>
      cases c'
      · refine ⟨3, _, rfl, rfl, ?_⟩
        simp only [T3, T1, T2, hk, switchChannel]
        exact ⟨trivial, l5, b1, by simp, by simp⟩
      · refine ⟨4, _, rfl, rfl, ?_⟩
        simp only [TC, hk]
        exact ⟨trivial, l3, b5, by simp, by simp⟩
      · refine ⟨3, _, rfl, rfl, ?_⟩
        simp only [T3, T1, T2, hk, switchChannel]
        exact ⟨trivial, l5, b2, by simp, by simp⟩
    all_goals exact ⟨0, _, by cases c' <;> rfl, rfl, rfl, h16, rfl, by simp, rfl⟩
  · cases k
    case k2b =>
      cases c'
      · refine ⟨1, _, rfl, rfl, ?_⟩
        simp only [T1, hk, switchChannel]
        exact ⟨trivial, l1, b3, by simp, by simp⟩
      · refine ⟨41, _, rfl, rfl, ?_⟩
        simp only [T1, TC, hk, switchChannel]
        exact ⟨trivial, l4, b6, by simp, by simp⟩
      · refine ⟨1, _, rfl, rfl, ?_⟩
        simp only [T1, hk, switchChannel]
        exact ⟨trivial, l1, b4, by simp, by simp⟩
    all_goals
      cases c'
      · refine ⟨2, _, rfl, rfl, ?_⟩
        simp only [T2, hk, switchChannel]
        exact ⟨trivial, l2, t2 _ (by decide), by simp, by simp⟩
      · refine ⟨1, _, rfl, rfl, ?_⟩
        simp only [T1, hk, switchChannel]
        exact ⟨trivial, l1, t1 _ (by decide), by simp, by simp⟩
      · refine ⟨2, _, rfl, rfl, ?_⟩
        simp only [T2, hk, switchChannel]
        exact ⟨trivial, l2, t2' _ (by decide), by simp, by simp⟩

end Verif.Symmetries
