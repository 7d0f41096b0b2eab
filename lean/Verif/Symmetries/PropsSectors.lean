import Verif.Symmetries.Reads
import Mathlib.Algebra.Order.Field.Basic
import Mathlib.Tactic.Linarith
import Mathlib.Tactic.NormNum
import Mathlib.Algebra.Order.Ring.Int

namespace Verif.Symmetries
open Verif.Freqs (Ch Fr halfFloor)

/-! ### C37: the frequency tables lead to the fundamental sector -/

section
variable {K : Type} [Field K] [LinearOrder K] [IsStrictOrderedRing K]

/-- Class `K1`, frequencies that are not rounded. `y` is in the sector where the table prescribes no
transformation, in the same channel and spin component; the diagram is not mirrored into another class. -/
theorem c37_K1 (cfg : Cfg) (ε : K) (hε : 0 ≤ ε) (x : Ind K) (hs : x.spin < 2) :
    ∃ i y, selectK1 cfg ε x.ch x.f = some i ∧ Ti cfg (fun _ => 0) i x = .ok y ∧
      selectK1 cfg ε y.ch y.f = some 0 ∧ y.ch = x.ch ∧ y.spin = x.spin ∧ (y.f.w = x.f.w ∨ y.f.w = -x.f.w) := by
  rcases x with ⟨iK, s, ⟨w, v1, v2⟩, c, p, cj, as⟩
  rcases cfg with ⟨kd, ph, la⟩
  have hs2 : 1 - (1 - s) = s := by simp only at hs; omega
  by_cases h : ε < w
  · have h' : ¬ ε < -w := by intro; linarith
    cases kd <;> cases ph <;> cases c <;>
      refine ⟨_, _, by simp [selectK1, signIndex, h, freqK1]; rfl, rfl, ?_⟩ <;>
      simp [selectK1, signIndex, h, h', freqK1, T3, T1, T2, TC, Tph, switchChannel, hs2]
  · cases kd <;> cases ph <;> cases c <;>
      refine ⟨_, _, by simp [selectK1, signIndex, h, freqK1]; rfl, rfl, ?_⟩ <;>
      simp [selectK1, signIndex, h, freqK1]

/-- Class `K2`. In addition the one fermionic frequency stays the one of the left side (`K2` is never turned
into `K2b`). -/
theorem c37_K2 (cfg : Cfg) (ε : K) (hε : 0 ≤ ε) (x : Ind K) (hs : x.spin < 2) :
    ∃ i y, selectK2 cfg ε x.ch x.f = some i ∧ Ti cfg (fun _ => 0) i x = .ok y ∧
      selectK2 cfg ε y.ch y.f = some 0 ∧ y.ch = x.ch ∧ y.spin = x.spin ∧ y.asym = x.asym ∧
      (y.f.w = x.f.w ∨ y.f.w = -x.f.w) ∧ (y.f.v1 = x.f.v1 ∨ y.f.v1 = -x.f.v1) := by
  rcases x with ⟨iK, s, ⟨w, v1, v2⟩, c, p, cj, as⟩
  rcases cfg with ⟨kd, ph, la⟩
  have hs2 : 1 - (1 - s) = s := by simp only at hs; omega
  by_cases h : ε < w <;> by_cases g : ε < v1
  · have h' : ¬ ε < -w := by intro; linarith
    have g' : ¬ ε < -v1 := by intro; linarith
    cases kd <;> cases ph <;> cases c <;>
      refine ⟨_, _, by simp [selectK2, signIndex, h, g, freqK2]; rfl, rfl, ?_⟩ <;>
      simp [selectK2, signIndex, h, h', g, g', freqK2, T3, T1, T2, TC, Tph, TR, switchChannel, hs2]
  · have h' : ¬ ε < -w := by intro; linarith
    cases kd <;> cases ph <;> cases c <;>
      refine ⟨_, _, by simp [selectK2, signIndex, h, g, freqK2]; rfl, rfl, ?_⟩ <;>
      simp [selectK2, signIndex, h, h', g, freqK2, T3, T1, T2, TC, Tph, TR, switchChannel, hs2]
  · have g' : ¬ ε < -v1 := by intro; linarith
    cases kd <;> cases ph <;> cases c <;>
      refine ⟨_, _, by simp [selectK2, signIndex, h, g, freqK2]; rfl, rfl, ?_⟩ <;>
      simp [selectK2, signIndex, h, g, g', freqK2, T3, T1, T2, TC, Tph, TR, switchChannel, hs2]
  · cases kd <;> cases ph <;> cases c <;>
      refine ⟨_, _, by simp [selectK2, signIndex, h, g, freqK2]; rfl, rfl, ?_⟩ <;>
      simp [selectK2, signIndex, h, g, freqK2]

/-- Class `K3`. -/
theorem c37_K3 (cfg : Cfg) (ε : K) (hε : 0 ≤ ε) (x : Ind K) (hs : x.spin < 2) :
    ∃ i y, selectK3 cfg ε (fun _ => 0) x.ch x.f = some i ∧ Ti cfg (fun _ => 0) i x = .ok y ∧
      selectK3 cfg ε (fun _ => 0) y.ch y.f = some 0 ∧ y.ch = x.ch ∧ y.spin = x.spin ∧
      (y.f.w = x.f.w ∨ y.f.w = -x.f.w) ∧
      ((y.f.v1 = x.f.v1 ∧ y.f.v2 = x.f.v2) ∨ (y.f.v1 = x.f.v2 ∧ y.f.v2 = x.f.v1) ∨
        (y.f.v1 = -x.f.v1 ∧ y.f.v2 = -x.f.v2) ∨ (y.f.v1 = -x.f.v2 ∧ y.f.v2 = -x.f.v1)) := by
  rcases x with ⟨iK, s, ⟨w, v1, v2⟩, c, p, cj, as⟩
  rcases cfg with ⟨kd, ph, la⟩
  have hs2 : 1 - (1 - s) = s := by simp only at hs; omega
  have h1 : ε < w → ¬ ε < -w := by intro; linarith
  have h2 : ε < v1 + v2 → ¬ ε < -v1 + -v2 := by intro; linarith
  have h2' : ε < v1 + v2 → ¬ ε < -v2 + -v1 := by intro; linarith
  have h3 : ε < v1 - v2 → ¬ ε < v2 - v1 := by intro; linarith
  have h3' : ε < v1 - v2 → ¬ ε < -v1 - -v2 := by intro; linarith
  have e1 : v2 + v1 = v1 + v2 := add_comm _ _
  have e2 : -v2 - -v1 = v1 - v2 := by ring
  have e3 : -v1 - -v2 = v2 - v1 := by ring
  have e4 : -v2 + -v1 = -v1 + -v2 := add_comm _ _
  by_cases a : ε < w <;> by_cases b : ε < v1 + v2 <;> by_cases d : ε < v1 - v2
  all_goals
    try (have a' := h1 a)
    try (have b' := h2 b)
    try (have d' := h3 d)
    cases kd <;> cases ph <;> cases c <;>
      refine ⟨_, _, by simp [selectK3, signIndex, a, b, d, freqK3]; rfl, rfl, ?_⟩ <;>
      simp [selectK3, signIndex, *, freqK3, T3, T1, T2, TC, Tph, TR, switchChannel, hs2]

end

/-- Class `K1`, imaginary frequencies at finite temperature (multiples of `π T`, bosonic ones even, fermionic
ones odd) with the rounding corrections of the code. -/
theorem c37_K1_rounded (cfg : Cfg) (x : Ind Int) (hs : x.spin < 2) (hk : cfg.keldysh = false) :
    ∃ i y, selectK1 cfg 0 x.ch x.f = some i ∧
      Ti cfg (fun w => halfFloor w - (w - halfFloor w)) i x = .ok y ∧
      selectK1 cfg 0 y.ch y.f = some 0 ∧ y.ch = x.ch ∧ y.spin = x.spin := by
  rcases x with ⟨iK, s, ⟨w, v1, v2⟩, c, p, cj, as⟩
  rcases cfg with ⟨kd, ph, la⟩
  simp only at hk; subst hk
  have hs2 : 1 - (1 - s) = s := by simp only at hs; omega
  by_cases h : 0 < w
  · have h' : ¬ 0 < -w := by omega
    cases c <;>
      refine ⟨_, _, by simp [selectK1, signIndex, h, freqK1]; rfl, rfl, ?_⟩ <;>
      simp [selectK1, signIndex, freqK1, T3, T1, T2, TC, switchChannel, hs2] <;>
      split_ifs <;> first | rfl | (exfalso; omega)
  · cases c <;>
      refine ⟨_, _, by simp [selectK1, signIndex, h, freqK1]; rfl, rfl, ?_⟩ <;>
      simp [selectK1, signIndex, h, freqK1]

/-- Class `K2`, imaginary frequencies at finite temperature. -/
theorem c37_K2_rounded (cfg : Cfg) (x : Ind Int) (hs : x.spin < 2) (hk : cfg.keldysh = false)
    (hw : x.f.w % 2 = 0) (hv : x.f.v1 % 2 = 1) :
    ∃ i y, selectK2 cfg 0 x.ch x.f = some i ∧
      Ti cfg (fun w => halfFloor w - (w - halfFloor w)) i x = .ok y ∧
      selectK2 cfg 0 y.ch y.f = some 0 ∧ y.ch = x.ch ∧ y.spin = x.spin ∧ y.asym = x.asym ∧
      y.f.w % 2 = 0 ∧ y.f.v1 % 2 = 1 := by
  rcases x with ⟨iK, s, ⟨w, v1, v2⟩, c, p, cj, as⟩
  rcases cfg with ⟨kd, ph, la⟩
  simp only at hk hw hv; subst hk
  have hs2 : 1 - (1 - s) = s := by simp only at hs; omega
  by_cases h : 0 < w <;> by_cases g : 0 < v1
  all_goals
    cases c <;>
      refine ⟨_, _, by simp [selectK2, signIndex, h, g, freqK2]; rfl, rfl, ?_⟩ <;>
      simp only [selectK2, signIndex, freqK2, T3, T1, T2, TC, TR, switchChannel, hs2, halfFloor, reduceCtorEq,
        if_true, if_false, Bool.xor_true, Bool.not_not, Bool.false_eq_true, Bool.xor_false, true_and, and_true] <;>
      refine ⟨?_, ?_⟩ <;> (try split_ifs) <;> first | rfl | omega | (exfalso; omega)

/-- Class `K3`, imaginary frequencies at finite temperature; the code compares `v + v'` with half of the
rounding correction. -/
theorem c37_K3_rounded (cfg : Cfg) (x : Ind Int) (hs : x.spin < 2) (hk : cfg.keldysh = false)
    (hw : x.f.w % 2 = 0) (hv : x.f.v1 % 2 = 1) (hv' : x.f.v2 % 2 = 1) :
    ∃ i y, selectK3 cfg 0 (fun w => (halfFloor w - (w - halfFloor w)) / 2) x.ch x.f = some i ∧
      Ti cfg (fun w => halfFloor w - (w - halfFloor w)) i x = .ok y ∧
      selectK3 cfg 0 (fun w => (halfFloor w - (w - halfFloor w)) / 2) y.ch y.f = some 0 ∧
      y.ch = x.ch ∧ y.spin = x.spin ∧ y.f.w % 2 = 0 ∧ y.f.v1 % 2 = 1 ∧ y.f.v2 % 2 = 1 := by
  rcases x with ⟨iK, s, ⟨w, v1, v2⟩, c, p, cj, as⟩
  rcases cfg with ⟨kd, ph, la⟩
  simp only at hk hw hv hv'; subst hk
  have hs2 : 1 - (1 - s) = s := by simp only at hs; omega
  by_cases h : 0 < w <;> by_cases g : 0 < v1 + v2 - (halfFloor w - (w - halfFloor w)) / 2 <;>
    by_cases d : 0 < v1 - v2
  all_goals
    cases c <;>
      refine ⟨_, _, by simp only [selectK3, signIndex, h, g, d, freqK3, if_true, if_false]; rfl, rfl, ?_⟩ <;>
      simp only [selectK3, signIndex, freqK3, T3, T1, T2, TC, TR, switchChannel, hs2, reduceCtorEq,
        if_true, if_false, Bool.xor_true, Bool.not_not, Bool.false_eq_true, Bool.xor_false, true_and, and_true] <;>
      unfold halfFloor at * <;>
      refine ⟨?_, ?_⟩ <;> (try split_ifs) <;> first | rfl | omega | (exfalso; omega)

/-- Non-trivial instances: an argument in the sector `w > 0`, `v > 0` moves, with and without rounding. -/
example : ∃ y, Ti (K := Int) ⟨true, true, false⟩ (fun _ => 0) 6 ⟨5, 0, ⟨4, 2, 0⟩, .a, 1, false, false⟩ = .ok y ∧
    y.f = ⟨-4, -2, 0⟩ := ⟨_, rfl, rfl⟩

end Verif.Symmetries
