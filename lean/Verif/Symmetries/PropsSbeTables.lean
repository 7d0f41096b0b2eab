import Verif.Symmetries.ModelSbe
import Verif.Symmetries.PropsTables
import Mathlib.Data.Fintype.BigOperators
import Mathlib.Algebra.BigOperators.Ring.Finset
import Mathlib.Tactic.FieldSimp
import Mathlib.Tactic.Ring

/-! ### C145: component tables of the boson-exchange decomposition -/
namespace Verif.Symmetries
open Verif.Freqs (Ch Fr halfFloor)
open Verif.Keldysh (iKToAlphas alphasToIK)

/-- Causality for the three-point vertices: the pair joined to the boson is connected to the diagram directly, not
through a bare vertex, so that it counts as 2 if it is of odd parity. The classes `K1` (the boson) and `K3` are as
in the other decomposition. -/
def vanishesSbe (c : Ch) (k : KClass) (iK : Nat) : Bool :=
  match k with
  | .k2 => (reduced c k iK).1.all id && (reduced c k iK).2.all id
  | .k2b => (reduced c k iK).1.all id && (reduced c k iK).2.all id
  | k => vanishes c k iK

/-- Every entry exists and is either "vanishing" or one of the independent components, all of which occur. -/
theorem c145_entries :
    (∀ (c : Ch) (k : KClass), ∀ s < 2, ∀ iK < 16,
      ∃ j ∈ componentSbe c k s iK, -1 ≤ j ∧ j < k.count) ∧
    (∀ (c : Ch) (k : KClass), ∀ s < 2, ∀ j : Nat, (j : Int) < k.count →
      ∃ iK < 16, componentSbe c k s iK = some (j : Int)) := by
  refine ⟨?_, ?_⟩
  · have h : ∀ (c : Ch) (k : KClass), ∀ s < 2, ∀ iK < 16, ((componentSbe c k s iK).any
      (fun j => decide (-1 ≤ j ∧ j < k.count))) = true := by decide +kernel
    intro c k s hs iK hi
    have := h c k s hs iK hi
    cases hc : componentSbe c k s iK with
    | none => rw [hc] at this; cases this
    | some j => rw [hc] at this; exact ⟨j, rfl, by simpa using this⟩
  · have h : ∀ (c : Ch) (k : KClass), ∀ s < 2, ∀ j : Nat, j < 6 → (j : Int) < k.count →
      ((List.range 16).any fun iK => componentSbe c k s iK == some (j : Int)) = true := by decide +kernel
    intro c k s hs j hj
    have h6 : j < 6 := by cases k <;> simp [KClass.count] at hj <;> omega
    have := h c k s hs j h6 hj
    simpa using this

/-- The entries marked as vanishing are exactly those excluded by causality. -/
theorem c145_vanishing : ∀ (c : Ch) (k : KClass), ∀ s < 2, ∀ iK < 16,
    (componentSbe c k s iK = some (-1) ↔ vanishesSbe c k iK = true) := by
  decide +kernel

/-- Two indices are assigned the same independent component exactly when they are related by symmetry. -/
theorem c145_classes : ∀ (c : Ch) (k : KClass), ∀ s < 2, ∀ i < 16, ∀ j < 16,
    vanishesSbe c k i = false → (componentSbe c k s i = componentSbe c k s j ↔ Related c k i j) := by
  have h : ∀ (c : Ch) (k : KClass), ∀ s < 2, ((List.range 16).all fun i => (List.range 16).all fun j =>
      vanishesSbe c k i || (decide (componentSbe c k s i = componentSbe c k s j) == ((keepClass c k).any fun π =>
        decide (reduced c k (ofBits (bits i ∘ π)) = reduced c k j)))) = true := by decide +kernel
  intro c k s hs i hi j hj hv
  have h1 := h c k s hs
  rw [List.all_eq_true] at h1
  have h2 := h1 i (List.mem_range.2 hi)
  rw [List.all_eq_true] at h2
  have h3 := h2 j (List.mem_range.2 hj)
  rw [hv, Bool.false_or, beq_iff_eq] at h3
  rw [← decide_eq_true_iff (p := componentSbe c k s i = componentSbe c k s j), h3]
  simp [Related]

/-- The list of Keldysh indices to compute contains one index per stored component, in the order in which the
table numbers them. -/
theorem c145_representatives (c : Ch) :
    (nonZeroSbe c).map (componentSbe c .k2 0) = (List.range 5).map fun j => some (j : Int) := by
  revert c; decide +kernel

theorem sbe_T2 : ∀ (c : Ch) (k : KClass), ∀ i < 16, c ≠ .p → k ≠ .k2b →
    componentSbe (crossed c) k 0 (alphasToIK (swapAt (iKToAlphas i) 0 1)) = componentSbe c k 1 i := by
  decide +kernel

theorem sbe_T1p : ∀ (k : KClass), ∀ i < 16, k ≠ .k2b →
    componentSbe .p k 0 (alphasToIK (swapAt (iKToAlphas i) 2 3)) = componentSbe .p k 1 i := by
  decide +kernel

theorem sbe_b : ∀ i < 16,
    componentSbe .a .k2 0 (alphasToIK (swapAt (iKToAlphas (alphasToIK (swapAt (iKToAlphas i) 2 3))) 0 1)) =
      componentSbe .a .k2b 0 i ∧
    componentSbe .t .k2 0 (alphasToIK (swapAt (iKToAlphas (alphasToIK (swapAt (iKToAlphas i) 2 3))) 0 1)) =
      componentSbe .t .k2b 0 i ∧
    componentSbe .t .k2 0 (alphasToIK (swapAt (iKToAlphas i) 2 3)) = componentSbe .a .k2b 1 i ∧
    componentSbe .a .k2 0 (alphasToIK (swapAt (iKToAlphas i) 2 3)) = componentSbe .t .k2b 1 i ∧
    componentSbe .p .k2 0 (alphasToIK (swapAt (swapAt (iKToAlphas i) 0 2) 1 3)) = componentSbe .p .k2b 0 i ∧
    componentSbe .p .k2 0 (alphasToIK (swapAt (iKToAlphas (alphasToIK
      (swapAt (swapAt (iKToAlphas i) 0 2) 1 3))) 2 3)) = componentSbe .p .k2b 1 i := by
  decide +kernel

/-- The transformation listed for a class and spin componentSbe leads to the stored spin component, to an index
with the same independent component, and from `K2b` to `K2` with the left and right sides exchanged: the one
fermionic frequency on which the stored function depends is the one of the requested function. -/
theorem c145_transformation {K : Type} [CommRing K] (cfg : Cfg) (hk : cfg.keldysh = true) (c : Ch) (k : KClass)
    (x : Ind K) (hc : x.ch = c) (hs : x.spin < 2) (h16 : x.iK < 16) :
    ∃ i y, compTransf c k x.spin = some i ∧ Ti cfg (fun _ => 0) i x = .ok y ∧ y.spin = 0 ∧ y.iK < 16 ∧
      componentSbe y.ch (if k = .k2b then .k2 else k) y.spin y.iK = componentSbe c k x.spin x.iK ∧
      y.asym = xor x.asym (decide (k = .k2b)) ∧
      y.f.v1 = (if k = .k2b then x.f.v2 else x.f.v1) := by
  have hs' : x.spin = 0 ∨ x.spin = 1 := by omega
  rcases x with ⟨iK, s, ⟨w, v1, v2⟩, c', p, cj, as⟩
  simp only at hc hs hs' h16
  subst hc
  have l1 := lt_swapIn _ h16; have l2 := lt_swapOut _ h16; have l3 := lt_inOut _ h16
  have l4 := lt_swapIn _ l3; have l5 := lt_swapOut _ l1
  obtain ⟨b1, b2, b3, b4, b5, b6⟩ := sbe_b _ h16
  have t2 := fun (k : KClass) (hb : k ≠ .k2b) => sbe_T2 .a k _ h16 (by decide) hb
  have t2' := fun (k : KClass) (hb : k ≠ .k2b) => sbe_T2 .t k _ h16 (by decide) hb
  have t1 := fun (k : KClass) (hb : k ≠ .k2b) => sbe_T1p k _ h16 hb
  rcases hs' with rfl | rfl
  · cases k
    case k2b =>
      cases c'
      · refine ⟨3, _, rfl, rfl, ?_⟩
        simp only [T3, T1, T2, hk, switchChannel]
        exact ⟨trivial, l5, b1, by simp, by simp⟩
      · refine ⟨4, _, rfl, rfl, ?_⟩
        simp only [TC, hk]
        exact ⟨trivial, l3, b5, by simp, by simp⟩
      · refine ⟨3, _, rfl, rfl, ?_⟩
        simp only [T3, T1, T2, hk, switchChannel]
        exact ⟨trivial, l5, b2, by simp, by simp⟩
    all_goals exact ⟨0, _, by cases c' <;> rfl, rfl, rfl, h16, rfl, by simp, rfl⟩
  · cases k
    case k2b =>
      cases c'
      · refine ⟨1, _, rfl, rfl, ?_⟩
        simp only [T1, hk, switchChannel]
        exact ⟨trivial, l1, b3, by simp, by simp⟩
      · refine ⟨41, _, rfl, rfl, ?_⟩
        simp only [T1, TC, hk, switchChannel]
        exact ⟨trivial, l4, b6, by simp, by simp⟩
      · refine ⟨1, _, rfl, rfl, ?_⟩
        simp only [T1, hk, switchChannel]
        exact ⟨trivial, l1, b4, by simp, by simp⟩
    all_goals
      cases c'
      · refine ⟨2, _, rfl, rfl, ?_⟩
        simp only [T2, hk, switchChannel]
        exact ⟨trivial, l2, t2 _ (by decide), by simp, by simp⟩
      · refine ⟨1, _, rfl, rfl, ?_⟩
        simp only [T1, hk, switchChannel]
        exact ⟨trivial, l1, t1 _ (by decide), by simp, by simp⟩
      · refine ⟨2, _, rfl, rfl, ?_⟩
        simp only [T2, hk, switchChannel]
        exact ⟨trivial, l2, t2' _ (by decide), by simp, by simp⟩


/-- The Keldysh index with given pairs on the left and on the right. -/
def pairIndex (c : Ch) (l r : Bool × Bool) : Nat :=
  match c with
  | .a => ofBits ![l.1, r.1, r.2, l.2]
  | .p => ofBits ![l.1, l.2, r.1, r.2]
  | .t => ofBits ![r.1, l.1, r.2, l.2]

/-- A function of the Keldysh indices respects a rule for vanishing components. -/
def Respects {R : Type} [Zero R] (rule : Nat → Bool) (f : Nat → R) : Prop := ∀ i < 16, rule i = true → f i = 0

/-- Joining two functions of the Keldysh indices by summing over the pair between them. -/
def joinPairs {R : Type} [CommRing R] (c : Ch) (f g : Nat → R) (l r : Bool × Bool) : R :=
  ∑ m : Bool × Bool, f (pairIndex c l m) * g (pairIndex c m r)

theorem vanishes_boson : ∀ (c : Ch) (m r : Bool × Bool), odd2 m.1 m.2 = false → odd2 r.1 r.2 = false →
    vanishes c .k1 (pairIndex c m r) = true ∧ pairIndex c m r < 16 := by
  decide +kernel

theorem vanishes_lambda : ∀ (c : Ch) (m : Bool × Bool), odd2 m.1 m.2 = true →
    vanishesSbe c .k2 (pairIndex c (true, true) m) = true ∧ pairIndex c (true, true) m < 16 := by
  decide +kernel

theorem vanishes_k2 : ∀ (c : Ch) (l r : Bool × Bool), vanishes c .k2 (pairIndex c l r) = true →
    l = (true, true) ∧ odd2 r.1 r.2 = false := by
  decide +kernel

theorem vanishes_k2_even : ∀ (c : Ch) (r : Bool × Bool), odd2 r.1 r.2 = false →
    vanishes c .k2 (pairIndex c (true, true) r) = true := by
  decide +kernel

/-- The rules fit together: a three-point vertex that respects the rule for `λ̄`, joined to a boson that respects the
rule for `K1`, gives a function that vanishes where the class `K2` of the other decomposition vanishes. -/
theorem c145_product {R : Type} [CommRing R] (c : Ch) (lam w : Nat → R) (hl : Respects (vanishesSbe c .k2) lam)
    (hw : Respects (vanishes c .k1) w) (l r : Bool × Bool) (hv : vanishes c .k2 (pairIndex c l r) = true) :
    joinPairs c lam w l r = 0 := by
  obtain ⟨rfl, hr⟩ := vanishes_k2 c l r hv
  refine Finset.sum_eq_zero fun m _ => ?_
  cases hm : odd2 m.1 m.2 with
  | false =>
    obtain ⟨h1, h2⟩ := vanishes_boson c m r hm hr
    rw [hw _ h2 h1, mul_zero]
  | true =>
    obtain ⟨h1, h2⟩ := vanishes_lambda c m hm
    rw [hl _ h2 h1, zero_mul]

/-- The table of the other decomposition would not do: a three-point vertex that respects the rule for `K2` can
give a component of `K2` that does not vanish where it should. -/
theorem c145_other_table (c : Ch) : ∃ lam w : Nat → ℤ, Respects (vanishes c .k2) lam ∧ Respects (vanishes c .k1) w ∧
    ∃ l r, vanishes c .k2 (pairIndex c l r) = true ∧ joinPairs c lam w l r ≠ 0 := by
  refine ⟨fun i => if vanishes c .k2 i then 0 else 1, fun i => if vanishes c .k1 i then 0 else 1,
    fun i _ h => by simp [h], fun i _ h => by simp [h], (true, true), (true, true), ?_, ?_⟩
  · exact vanishes_k2_even c _ rfl
  · cases c <;> decide +kernel

/-- A matrix in the pairs of Keldysh indices depends on its second pair through the parity only. -/
def RightParity {R : Type} (M : Bool × Bool → Bool × Bool → R) : Prop :=
  ∀ l r r', odd2 r.1 r.2 = odd2 r'.1 r'.2 → M l r = M l r'

/-- A matrix in the pairs of Keldysh indices depends on its first pair through the parity only. -/
def LeftParity {R : Type} (M : Bool × Bool → Bool × Bool → R) : Prop :=
  ∀ l l' r, odd2 l.1 l.2 = odd2 l'.1 l'.2 → M l r = M l' r

theorem project_right {R : Type} [Field R] (M : Bool × Bool → Bool × Bool → R) (l r : Bool × Bool) :
    pairMul M projection l r = (M l r + M l (!r.1, !r.2)) / 2 := by
  rcases r with ⟨r1, r2⟩
  cases r1 <;> cases r2 <;>
    simp [pairMul, projection, projectionTable, pairNumber, Fintype.sum_prod_type] <;> ring

theorem project_left {R : Type} [Field R] (M : Bool × Bool → Bool × Bool → R) (l r : Bool × Bool) :
    pairMul projection M l r = (M l r + M (!l.1, !l.2) r) / 2 := by
  rcases l with ⟨l1, l2⟩
  cases l1 <;> cases l2 <;>
    simp [pairMul, projection, projectionTable, pairNumber, Fintype.sum_prod_type] <;> ring

theorem same_parity (r r' : Bool × Bool) (h : odd2 r.1 r.2 = odd2 r'.1 r'.2) : r' = r ∨ r' = (!r.1, !r.2) := by
  revert r r'; decide

theorem flip_parity (r : Bool × Bool) : odd2 (!r.1) (!r.2) = odd2 r.1 r.2 := by revert r; decide

/-- The matrix multiplied to the integrand of a three-point vertex is the projection onto functions of the parity:
the result depends on the pair joined to the boson through its parity only, and exactly the functions that already do
so are left unchanged. -/
theorem c145_projection {R : Type} [Field R] [NeZero (2 : R)] (M : Bool × Bool → Bool × Bool → R) :
    RightParity (pairMul M projection) ∧ (pairMul M projection = M ↔ RightParity M) ∧
      LeftParity (pairMul projection M) ∧ (pairMul projection M = M ↔ LeftParity M) := by
  have h2 : (2 : R) ≠ 0 := NeZero.ne 2
  have hr : RightParity (pairMul M projection) := by
    intro l r r' h
    rw [project_right, project_right]
    rcases same_parity r r' h with rfl | rfl
    · rfl
    · simp [add_comm]
  have hl : LeftParity (pairMul projection M) := by
    intro l l' r h
    rw [project_left, project_left]
    rcases same_parity l l' h with rfl | rfl
    · rfl
    · simp [add_comm]
  refine ⟨hr, ⟨fun h => h ▸ hr, fun h => ?_⟩, hl, ⟨fun h => h ▸ hl, fun h => ?_⟩⟩
  · funext l r
    rw [project_right, ← h l r (!r.1, !r.2) (flip_parity r).symm]
    field_simp; ring
  · funext l r
    rw [project_left, ← h l (!l.1, !l.2) r (flip_parity l).symm]
    field_simp; ring

/-- It does not change what the vertex contributes when it is joined to a boson. -/
theorem c145_projection_joined {R : Type} [Field R] [NeZero (2 : R)] (M W : Bool × Bool → Bool × Bool → R) :
    (LeftParity W → pairMul (pairMul M projection) W = pairMul M W) ∧
      (RightParity W → pairMul W (pairMul projection M) = pairMul W M) := by
  have assoc : ∀ A B C : Bool × Bool → Bool × Bool → R, pairMul (pairMul A B) C = pairMul A (pairMul B C) := by
    intro A B C
    funext l r
    simp only [pairMul, Finset.sum_mul, Finset.mul_sum]
    rw [Finset.sum_comm]
    exact Finset.sum_congr rfl fun _ _ => Finset.sum_congr rfl fun _ _ => mul_assoc _ _ _
  refine ⟨fun h => ?_, fun h => ?_⟩
  · rw [assoc, ((c145_projection W).2.2.2).2 h]
  · rw [← assoc, ((c145_projection W).2.1).2 h]

/-! Concrete cases. -/

example : ¬ RightParity (fun _ r : Bool × Bool => if r.1 then (1 : ℚ) else 0) := by
  intro h
  have := h (true, true) (true, true) (false, false) rfl
  simp at this
example : RightParity (fun _ r : Bool × Bool => if odd2 r.1 r.2 then (1 : ℚ) else 3) := by
  intro l r r' h
  simp only [h]

example : componentSbe .a .k2 0 9 = some 4 ∧ componentSbe .a .k2 0 11 = some (-1) ∧
    component .a .k2 0 9 = some (-1) ∧ component .a .k2 0 11 = some 4 := by decide
example : vanishesSbe .p .k2 13 = true ∧ vanishesSbe .p .k2 12 = false := by decide
example : Respects (vanishesSbe .a .k2) (fun i => if vanishesSbe .a .k2 i then (0 : ℤ) else 3) :=
  fun i _ h => by simp [h]

end Verif.Symmetries
