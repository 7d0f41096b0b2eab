import Verif.Thermal.Lines
import Verif.Fdt.Props

/-! Relation to the checks and completions of the code. -/
namespace Verif.Thermal
open Verif.Fdt Verif.Heredity Verif.Symmetries Verif.Invariant Verif.Sde.Limit MeasureTheory
open Verif.Freqs (Ch)

/-! ### Relation to the checks of the code -/

theorem bit_nat (n j : Nat) : (n.testBit j).toNat = n / 2 ^ j % 2 := by
  rw [Nat.testBit_eq_decide_div_mod_eq]
  rcases Nat.mod_two_eq_zero_or_one (n / 2 ^ j) with h | h <;> simp [h]

theorem component_bits (F : K4 → ℂ) (iK : Nat) : Fdt.component (branches F) iK = F (bits iK 0, bits iK 1, bits iK 2, bits iK 3) := by
  rw [rot_inv F]
  have h3 := bit_nat iK 3
  have h2 := bit_nat iK 2
  have h1 := bit_nat iK 1
  have h0 := bit_nat iK 0
  norm_num at h3 h2 h1 h0
  simp only [Fdt.component, branches, kern, tn, bits, Fintype.sum_prod_type]
  simp only [Fin.val_zero, Fin.val_one, Fin.val_two, show ((3 : Fin 4) : ℕ) = 3 from rfl, Nat.sub_zero, Nat.sub_self,
    show 3 - 1 = 2 from rfl, show 3 - 2 = 1 from rfl, h3, h2, h1, Nat.testBit_zero, h0]

theorem leg_rel (c : Ch) (w v vp : ℝ) : Fdt.leg c w v vp = rel 0 (legFun (Freqs.legs (.ch c) ⟨w, v, vp⟩)) := by
  cases c <;> funext k <;> fin_cases k <;> simp [Fdt.leg, rel, legFun, Freqs.legs] <;> ring

theorem thermal_in {T : ℝ} {V : VF} (hV : Equilibrium T 0 V) (h : Bool) (c : Ch) {s : Nat} (hs : s < 2) (w v vp : ℝ)
    (hz : V h c s (bits 15) (legFun (Freqs.legs (.ch c) ⟨w, v, vp⟩)) = 0) :
    ThermalIn c T w v vp (branches (comps V h c s (legFun (Freqs.legs (.ch c) ⟨w, v, vp⟩)))) := by
  have hc := hV h c s hs _ (conserved c ⟨w, v, vp⟩)
  constructor
  · intro a b c' d
    have := hc (a, b, c', d)
    rw [← leg_rel] at this
    rw [neg_mul, ← neg_one_mul, ← mul_assoc]
    exact this
  · have := component_bits (comps V h c s (legFun (Freqs.legs (.ch c) ⟨w, v, vp⟩))) 15
    have e : (![bits 15 0, bits 15 1, bits 15 2, bits 15 3]) = bits 15 := by funext k; fin_cases k <;> rfl
    simp only [comps, e, hz] at this
    simpa [Fdt.component, Fdt.turn] using this

theorem comps_bits (V : VF) (h : Bool) (c : Ch) (s : Nat) (ν : Fin 4 → ℝ) :
    Fdt.component (branches (comps V h c s ν)) = fun iK => V h c s (bits iK) ν := by
  funext iK
  rw [component_bits]
  have e : (![bits iK 0, bits iK 1, bits iK 2, bits iK 3]) = bits iK := by funext k; fin_cases k <;> rfl
  simp only [comps, e]

/-- Legs that end at one bare vertex are on the same branch. -/
theorem beta_leg {w : ℝ} (h : Bool) (c : Ch) (s1 s2 s3 s4 : Bool) (e1 e2 e3 e4 : ℝ) (b : K4)
    (hb : ¬ (b.1 = b.2.1 ∧ b.1 = b.2.2.1 ∧ b.1 = b.2.2.2)) :
    rot (fun k => legVal ⟨bareK w⟩ h c ⟨s1, k.1, e1⟩ ⟨s2, k.2.1, e2⟩ ⟨s3, k.2.2.1, e3⟩ ⟨s4, k.2.2.2, e4⟩) b = 0 := by
  have key : rot (fun k => beta w k.1 k.2.1 k.2.2.1 k.2.2.2) b = 0 := by
    rw [rot_beta]
    obtain ⟨b1, b2, b3, b4⟩ := b
    revert hb
    cases b1 <;> cases b2 <;> cases b3 <;> cases b4 <;> simp
  have e : (fun k : K4 => legVal ⟨bareK w⟩ h c ⟨s1, k.1, e1⟩ ⟨s2, k.2.1, e2⟩ ⟨s3, k.2.2.1, e3⟩ ⟨s4, k.2.2.2, e4⟩) =
      fun k => ((if s1 = s3 ∧ s2 = s4 then 1 else 0) - (if s1 = s4 ∧ s2 = s3 then 1 else 0)) * beta w k.1 k.2.1 k.2.2.1 k.2.2.2 := by
    funext k
    show (if s1 = s3 ∧ s2 = s4 then beta w k.1 k.2.1 k.2.2.1 k.2.2.2 else 0) +
      (if s1 = s4 ∧ s2 = s3 then -beta w k.1 k.2.1 k.2.2.1 k.2.2.2 else 0) = _
    split <;> split <;> ring
  rw [e, rot_smul, key, mul_zero]

theorem int_branches {L R : VF} (tL : TameV L) (tR : TameV R) {P : Pair} (hP : DecayPair P) (c : Ch) (s : Nat) {ν : Fin 4 → ℝ}
    (hν : ν 0 + ν 1 = ν 2 + ν 3) (b : K4) : rot (comps (bub L R P) false c s ν) b = pref c * ∫ x, rot (fun k : K4 =>
      Heredity.inner ⟨L⟩ ⟨R⟩ P c ⟨true, k.1, ν 0⟩ ⟨false, k.2.1, ν 1⟩ ⟨s == 0, k.2.2.1, ν 2⟩ ⟨s != 0, k.2.2.2, ν 3⟩
        (Heredity.lineE c ν x).1 (Heredity.lineE c ν x).2) b := by
  have e : comps (bub L R P) false c s ν = fun k => pref c * ∫ x : ℝ, Heredity.inner ⟨L⟩ ⟨R⟩ P c ⟨true, k.1, ν 0⟩
      ⟨false, k.2.1, ν 1⟩ ⟨s == 0, k.2.2.1, ν 2⟩ ⟨s != 0, k.2.2.2, ν 3⟩ (Heredity.lineE c ν x).1 (Heredity.lineE c ν x).2 := by
    funext k
    exact if_pos hν
  rw [e, rot_smul, rot_int fun k => inner_int tL tR hP c _ _ _ _ ν]

theorem rot_inner (L R : VF) (P : Pair) (c : Ch) (s1 s2 s3 s4 : Bool) (e1 e2 e3 e4 y z : ℝ) (b : K4)
    (h : ∀ u v, rot (fun k : K4 => ∑ q : K4, term ⟨L⟩ ⟨R⟩ P c ⟨s1, k.1, e1⟩ ⟨s2, k.2.1, e2⟩
      ⟨s3, k.2.2.1, e3⟩ ⟨s4, k.2.2.2, e4⟩ y z ⟨u, v, q.1, q.2.1, q.2.2.1, q.2.2.2⟩) b = 0) :
    rot (fun k : K4 => Heredity.inner ⟨L⟩ ⟨R⟩ P c ⟨s1, k.1, e1⟩ ⟨s2, k.2.1, e2⟩ ⟨s3, k.2.2.1, e3⟩ ⟨s4, k.2.2.2, e4⟩ y z) b = 0 := by
  simp only [Heredity.inner, sum_lines, Finset.sum_add_distrib]
  rw [rot_add, rot_add, rot_add, h, h, h, h]
  simp

/-- The external legs of channel `c` at the left and at the right vertex are on different branches. -/
def Apart (c : Ch) (left : Bool) (b : K4) : Prop :=
  match c, left with
  | .a, true => b.1 ≠ b.2.2.2
  | .a, false => b.2.1 ≠ b.2.2.1
  | .p, true => b.1 ≠ b.2.1
  | .p, false => b.2.2.1 ≠ b.2.2.2
  | .t, true => b.2.1 ≠ b.2.2.2
  | .t, false => b.1 ≠ b.2.2.1

theorem apart_bare {w : ℝ} {L R : VF} {P : Pair} (c : Ch) (s1 s2 s3 s4 : Bool) (e1 e2 e3 e4 y z : ℝ) (left : Bool)
    (hV : if left then L = bareK w else R = bareK w) (b : K4) (hb : Apart c left b) (u v : Bool) :
    rot (fun k : K4 => ∑ q : K4, term ⟨L⟩ ⟨R⟩ P c ⟨s1, k.1, e1⟩ ⟨s2, k.2.1, e2⟩
      ⟨s3, k.2.2.1, e3⟩ ⟨s4, k.2.2.2, e4⟩ y z ⟨u, v, q.1, q.2.1, q.2.2.1, q.2.2.2⟩) b = 0 := by
  cases c with
  | a =>
    rw [term_a, rot_join plainA]
    refine Finset.sum_eq_zero fun q _ => ?_
    cases left
    · have hR : R = bareK w := by simpa using hV
      subst hR
      rw [beta_leg true .a u s2 s3 v y e2 e3 z (wireA (b, q)).2 (fun h => hb (h.1.symm.trans h.2.1)), mul_zero]
    · have hL : L = bareK w := by simpa using hV
      subst hL
      rw [beta_leg false .a s1 v u s4 e1 z y e4 (wireA (b, q)).1 (fun h => hb h.2.2), zero_mul, zero_mul]
  | p =>
    by_cases hs : u = s3 ∧ v = s4
    swap
    · rw [term_p0 _ _ _ _ _ _ _ _ _ _ _ _ _ _ _ hs, rot_zero]
    rw [term_p _ _ _ _ _ _ _ _ _ _ _ _ _ _ _ hs, rot_join plainP]
    refine Finset.sum_eq_zero fun q _ => ?_
    cases left
    · have hR : R = bareK w := by simpa using hV
      subst hR
      rw [beta_leg true .p u v s3 s4 y z e3 e4 (wireP (b, q)).2 (fun h => hb (h.2.1.symm.trans h.2.2)), mul_zero]
    · have hL : L = bareK w := by simpa using hV
      subst hL
      rw [beta_leg false .p s1 s2 u v e1 e2 y z (wireP (b, q)).1 (fun h => hb h.1), zero_mul, zero_mul]
  | t =>
    rw [term_t, rot_join plainT]
    refine Finset.sum_eq_zero fun q _ => ?_
    cases left
    · have hR : R = bareK w := by simpa using hV
      subst hR
      rw [beta_leg true .t s1 u s3 v e1 y e3 z (wireT (b, q)).2 (fun h => hb h.2.1), mul_zero]
    · have hL : L = bareK w := by simpa using hV
      subst hL
      rw [beta_leg false .t v s2 u s4 z e2 y e4 (wireT (b, q)).1 (fun h => hb (h.1.symm.trans h.2.2)), zero_mul, zero_mul]

theorem merged {w : ℝ} {L R : VF} (tL : TameV L) (tR : TameV R) {P : Pair} (hP : DecayPair P) (c : Ch) (s : Nat) {ν : Fin 4 → ℝ}
    (hν : ν 0 + ν 1 = ν 2 + ν 3) (left : Bool) (hV : if left then L = bareK w else R = bareK w) (b : K4) (hb : Apart c left b) :
    rot (comps (bub L R P) false c s ν) b = 0 := by
  rw [int_branches tL tR hP c s hν]
  simp only [rot_inner L R P c _ _ _ _ _ _ _ _ _ _ b fun u v => apart_bare c _ _ _ _ _ _ _ _ _ _ left hV b hb u v]
  simp

theorem left_merged {w : ℝ} {R : VF} (tR : TameV R) {P : Pair} (hP : DecayPair P) (c : Ch) (s : Nat) {ν : Fin 4 → ℝ}
    (hν : ν 0 + ν 1 = ν 2 + ν 3) : LeftMerged c (branches (comps (bub (bareK w) R P) false c s ν)) := by
  cases c <;> exact fun a b c' d h => merged (tame_bare w) tR hP _ s hν true rfl (a, b, c', d) h

theorem right_merged {w : ℝ} {L : VF} (tL : TameV L) {P : Pair} (hP : DecayPair P) (c : Ch) (s : Nat) {ν : Fin 4 → ℝ}
    (hν : ν 0 + ν 1 = ν 2 + ν 3) : RightMerged c (branches (comps (bub L (bareK w) P) false c s ν)) := by
  cases c <;> exact fun a b c' d h => merged tL (tame_bare w) hP _ s hν false rfl (a, b, c', d) h

end Verif.Thermal
