import Verif.Symmetries.Reads
import Mathlib.Algebra.Order.Field.Basic
import Mathlib.Tactic.Linarith
import Mathlib.Tactic.NormNum
import Mathlib.Data.Rat.Star
import Mathlib.Data.Complex.Basic

namespace Verif.Symmetries
open Verif.Freqs (Ch Fr Legs legs legsM Conv halfFloor)
open Verif.Keldysh (iKToAlphas alphasToIK)

/-! ### C35: the transformations are the documented symmetries -/

section
variable {K R : Type} [CommRing K] [CommRing R] [StarRing R]

theorem ti_value {cfg : Cfg} {W : K → Prop} {lo corr : K → K} {V : Vertex K R} (hs : Sym cfg V)
    (hr : Rounding W lo corr) (hz : cfg.keldysh = true → ∀ w, W w → 2 * lo w = w)
    {x y : Ind K} (h : Ok cfg x) (hw : W x.f.w) (i : Nat) (hy : Ti cfg corr i x = .ok y) :
    read cfg lo V x = read cfg lo V y := by
  let G : Ind K → Prop := fun z => Ok cfg z ∧ W z.f.w ∧ read cfg lo V x = read cfg lo V z
  have g0 : G x := ⟨h, hw, rfl⟩
  have g1 : ∀ z, G z → G (T1 cfg corr z) := fun z g =>
    ⟨ok_T1 g.1, w_T1 hr g.2.1, g.2.2.trans (read_T1 hs hr g.1 g.2.1)⟩
  have g2 : ∀ z, G z → G (T2 cfg corr z) := fun z g =>
    ⟨ok_T2 g.1, w_T2 g.2.1, g.2.2.trans (read_T2 hs hr g.1 g.2.1)⟩
  have g3 : ∀ z, G z → G (T3 cfg corr z) := fun z g => g2 _ (g1 _ g)
  have gc : ∀ z, G z → G (TC cfg corr z) := fun z g =>
    ⟨ok_TC g.1, w_TC hr g.2.1, g.2.2.trans (read_TC hs hr g.1 g.2.1)⟩
  have gp : ∀ z, G z → G (Tph cfg z) := fun z g =>
    ⟨ok_Tph g.1, w_Tph hr g.2.1, g.2.2.trans (read_Tph hs hr hz g.1 g.2.1)⟩
  have gr : ∀ z, G z → G (TR cfg corr z) := fun z g =>
    ⟨ok_TR g.1, w_TR hr g.2.1, g.2.2.trans (read_TR hs hr g.1 g.2.1)⟩
  suffices hG : G y from hG.2.2
  clear_value G
  have key : ∀ (b : Bool) (z : Ind K), (if b = true then Except.ok z else Except.error Fail.assertion) =
      (.ok y : Res (Ind K)) → z = y := by
    intro b z hh; cases b <;> simp at hh; exact hh
  have key0 : ∀ z : Ind K, (Except.ok z : Res (Ind K)) = .ok y → z = y := fun z hh => by simpa using hh
  unfold Ti at hy
  dsimp only at hy
  split at hy
  · exact key0 _ hy ▸ g0
  · exact key0 _ hy ▸ g1 _ g0
  · exact key0 _ hy ▸ g2 _ g0
  · exact key0 _ hy ▸ g3 _ g0
  · exact key0 _ hy ▸ gc _ g0
  · exact key0 _ hy ▸ gc _ (g1 _ g0)
  · exact key0 _ hy ▸ gc _ (g2 _ g0)
  · exact key0 _ hy ▸ g1 _ (gc _ g0)
  · exact key0 _ hy ▸ g3 _ (gc _ g0)
  · exact key0 _ hy ▸ g3 _ (gc _ g0)
  · exact key _ _ hy ▸ gp _ g0
  · exact key _ _ hy ▸ gp _ (g1 _ g0)
  · exact key _ _ hy ▸ gp _ (g2 _ g0)
  · exact key _ _ hy ▸ gp _ (g3 _ g0)
  · exact key _ _ hy ▸ gp _ (gc _ g0)
  · exact key _ _ hy ▸ gp _ (gc _ (g1 _ g0))
  · exact key _ _ hy ▸ gp _ (gc _ (g2 _ g0))
  · exact key _ _ hy ▸ g3 _ (gc _ (gp _ g0))
  · exact key0 _ hy ▸ gr _ g0
  · exact key0 _ hy ▸ g3 _ (gr _ g0)
  · exact key0 _ hy ▸ gr _ (gc _ g0)
  · exact key0 _ hy ▸ g3 _ (gc _ (gr _ g0))
  · cases hy

end

/-- Frequencies whose halves are not rounded (real frequencies, and imaginary ones at zero temperature): every
transformation of the tables leaves the value read from a vertex with the physical symmetries unchanged. The
legs are those of `Freqs.legs`. -/
theorem c35_value {K R : Type} [Field K] [NeZero (2 : K)] [CommRing R] [StarRing R] {cfg : Cfg}
    {V : Vertex K R} (hs : Sym cfg V) {x y : Ind K} (h16 : x.iK < 16) (hsp : x.spin < 2)
    (hm : cfg.keldysh = false → x.iK = 0) (i : Nat) (hy : Ti cfg (fun _ => 0) i x = .ok y) :
    applyRead cfg x (V.val x.asym x.ch x.spin (bits x.iK) (legFun (legs (.ch x.ch) x.f))) =
    applyRead cfg y (V.val y.asym y.ch y.spin (bits y.iK) (legFun (legs (.ch y.ch) y.f))) := by
  have e : ∀ (c : Ch) (f : Fr K), legs (.ch c) f = legsR (fun w => w / 2) c f := by
    intro c f
    have h2 : ∀ w : K, w - w / 2 = w / 2 := by intro w; have := NeZero.ne (2 : K); field_simp; ring
    cases c <;> simp only [legs, legsR, h2] <;> congr 1 <;> ring
  have h2 : ∀ w : K, 2 * (w / 2) = w := by intro w; have := NeZero.ne (2 : K); field_simp
  have hr : Rounding (fun _ : K => True) (fun w => w / 2) (fun _ => 0) := by
    refine ⟨fun w _ => ?_, fun w _ => ?_, fun _ _ => trivial⟩
    · have := h2 w; linear_combination -this
    · have := h2 w; linear_combination -this
  have := ti_value hs hr (fun _ w _ => h2 w) (x := x) (y := y) ⟨h16, hsp, hm⟩ trivial i hy
  unfold read at this
  rw [e, e]; exact this

/-- `signFlipCorrection_MF` on bosonic Matsubara frequencies: it never fails, and is the difference between the
even floor and the even ceiling of half the frequency. -/
theorem c35_rounding (w : Int) (hw : w % 2 = 0) :
    Freqs.signFlip (w : ℚ) = .ok (halfFloor w - (w - halfFloor w)) := by
  obtain ⟨m, rfl⟩ : ∃ m, w = 2 * m := ⟨w / 2, by omega⟩
  have e1 : |((2 * m : Int) : ℚ) / 2| = ((|m| : Int) : ℚ) := by
    push_cast; rw [mul_div_cancel_left₀ _ (by norm_num : (2:ℚ) ≠ 0)]
  have e2 : Freqs.truncQ ((|m| : Int) : ℚ) = |m| := by
    unfold Freqs.truncQ
    rw [if_pos (by exact_mod_cast abs_nonneg m), Int.floor_intCast]
  have e3 : (-|m|).tmod 2 = -(|m| % 2) := by
    rw [Int.neg_tmod, Int.tmod_eq_emod_of_nonneg (abs_nonneg m)]
  have e4 : |m| % 2 = m % 2 := by
    rcases abs_choice m with h | h <;> rw [h]; omega
  have e5 : Freqs.signFlipInt ((2 * m : Int) : ℚ) = .ok (-(m % 2)) := by
    unfold Freqs.signFlipInt
    rw [e1, e2]; dsimp only
    rw [e3, e4, if_pos (by omega)]
  unfold Freqs.signFlip
  rw [e5]
  show Except.ok (-(m % 2) * 2) = _
  congr 1
  unfold halfFloor; omega

/-- Imaginary frequencies at finite temperature, with the rounded conventions of `Freqs.legsM`. -/
theorem c35_value_rounded {R : Type} [CommRing R] [StarRing R] {cfg : Cfg} (hk : cfg.keldysh = false)
    {V : Vertex Int R} (hs : Sym cfg V) {x y : Ind Int} (h0 : x.iK = 0) (hsp : x.spin < 2)
    (hw : x.f.w % 2 = 0) (i : Nat)
    (hy : Ti cfg (fun w => halfFloor w - (w - halfFloor w)) i x = .ok y) :
    applyRead cfg x (V.val x.asym x.ch x.spin (bits x.iK)
      (legFun (legsM (.ch x.ch) x.f (halfFloor x.f.w)))) =
    applyRead cfg y (V.val y.asym y.ch y.spin (bits y.iK)
      (legFun (legsM (.ch y.ch) y.f (halfFloor y.f.w)))) := by
  have e : ∀ (c : Ch) (f : Fr Int), legsM (.ch c) f (halfFloor f.w) = legsR halfFloor c f := by
    intro c f; cases c <;> rfl
  have hr : Rounding (fun w : Int => w % 2 = 0) halfFloor (fun w => halfFloor w - (w - halfFloor w)) := by
    refine ⟨fun w _ => ?_, fun w _ => by ring, fun w _ => by omega⟩
    unfold halfFloor; omega
  have := ti_value hs hr (fun h => by simp [hk] at h) (x := x) (y := y)
    ⟨by omega, hsp, fun _ => h0⟩ hw i hy
  unfold read at this
  rw [e, e]; exact this

/-- Every code that occurs in a table is covered by `Ti`. -/
theorem c35_defined {K : Type} [CommRing K] (cfg : Cfg) (corr : K → K) (x : Ind K) (i : Nat) (c : Ch)
    (h : (∃ k s, compTransf c k s = some i) ∨ (∃ k s, compTransfM c k s = some i) ∨
      i ∈ freqK1 cfg.keldysh cfg.ph c ∨ i ∈ freqK2 cfg.keldysh cfg.ph c ∨
      i ∈ freqK3 cfg.keldysh cfg.ph c) : ∃ y, Ti cfg corr i x = .ok y := by
  have hc : ∀ c k s, ∀ i, compTransf c k s = some i ∨ compTransfM c k s = some i →
      i = 0 ∨ i = 1 ∨ i = 2 ∨ i = 3 ∨ i = 4 ∨ i = 41 := by
    intro c k s i h
    by_cases hs : s < 2
    · have : s = 0 ∨ s = 1 := by omega
      rcases this with rfl | rfl <;> cases c <;> cases k <;>
        simp [compTransf, compTransfM, KClass.idx] at h <;> omega
    · simp [compTransf, compTransfM, hs] at h
  have case1 : (∃ k s, compTransf c k s = some i ∨ compTransfM c k s = some i) →
      ∃ y, Ti cfg corr i x = .ok y := by
    rintro ⟨k, s, h⟩
    rcases hc c k s i h with rfl | rfl | rfl | rfl | rfl | rfl <;> exact ⟨_, rfl⟩
  rcases h with ⟨k, s, h⟩ | ⟨k, s, h⟩ | h
  · exact case1 ⟨k, s, .inl h⟩
  · exact case1 ⟨k, s, .inr h⟩
  · rcases cfg with ⟨kd, ph, la⟩
    cases kd <;> cases ph <;> cases c <;> simp [freqK1, freqK2, freqK3] at h <;>
      repeat' first | (subst h; exact ⟨_, rfl⟩) | rcases h with h | h

/-- Group relations: the crossings and the conjugation are involutions, the crossings commute, and conjugation
turns one crossing into the other. -/
theorem c35_group {K : Type} [CommRing K] {cfg : Cfg} {W : K → Prop} {lo corr : K → K}
    (hr : Rounding W lo corr) {x : Ind K} (h16 : x.iK < 16) (hsp : x.spin < 2) (hw : W x.f.w) :
    T1 cfg corr (T1 cfg corr x) = x ∧ T2 cfg corr (T2 cfg corr x) = x ∧
    TC cfg corr (TC cfg corr x) = x ∧
    T1 cfg corr (T2 cfg corr x) = T2 cfg corr (T1 cfg corr x) ∧
    TC cfg corr (T1 cfg corr x) = T2 cfg corr (TC cfg corr x) ∧
    Tph cfg (Tph cfg x) = x ∧ TR cfg corr (TR cfg corr x) = x := by
  have d1 : ∀ iK < 16, alphasToIK (swapAt (iKToAlphas (alphasToIK (swapAt (iKToAlphas iK) 2 3))) 2 3) = iK := by
    decide +kernel
  have d2 : ∀ iK < 16, alphasToIK (swapAt (iKToAlphas (alphasToIK (swapAt (iKToAlphas iK) 0 1))) 0 1) = iK := by
    decide +kernel
  have d3 : ∀ iK < 16, alphasToIK (swapAt (swapAt (iKToAlphas (alphasToIK
      (swapAt (swapAt (iKToAlphas iK) 0 2) 1 3))) 0 2) 1 3) = iK := by
    decide +kernel
  have d4 : ∀ iK < 16, alphasToIK (swapAt (iKToAlphas (alphasToIK (swapAt (iKToAlphas iK) 0 1))) 2 3) =
      alphasToIK (swapAt (iKToAlphas (alphasToIK (swapAt (iKToAlphas iK) 2 3))) 0 1) := by
    decide +kernel
  have d5 : ∀ iK < 16, alphasToIK (swapAt (swapAt (iKToAlphas (alphasToIK (swapAt (iKToAlphas iK) 2 3))) 0 2) 1 3) =
      alphasToIK (swapAt (iKToAlphas (alphasToIK (swapAt (swapAt (iKToAlphas iK) 0 2) 1 3))) 0 1) := by
    decide +kernel
  have d6 : ∀ iK < 16, (alphasToIK (swapAt (swapAt (iKToAlphas iK) 0 2) 1 3) ∈ oddKeldysh ↔
      iK ∈ oddKeldysh) := by decide +kernel
  have d7 : ∀ iK < 16, (alphasToIK (swapAt (iKToAlphas iK) 2 3) ∈ oddKeldysh ↔
      iK ∈ oddKeldysh) := by decide +kernel
  have d8 : ∀ iK < 16, (alphasToIK (swapAt (iKToAlphas (alphasToIK
      (swapAt (swapAt (iKToAlphas iK) 0 2) 1 3))) 0 1) ∈ oddKeldysh ↔ iK ∈ oddKeldysh) := by decide +kernel
  have e1 := hr.neg _ hw; have e2 := hr.corr _ hw; have e3 := hr.corr _ (hr.closed _ hw)
  have l1 := lt_swapIn _ h16; have l2 := lt_inOut _ h16
  have hs : x.spin = 0 ∨ x.spin = 1 := by omega
  rcases x with ⟨iK, s, ⟨w, v1, v2⟩, c, p, cj, as⟩
  simp only at e1 e2 e3 h16 hs l1 l2
  have e4 : corr (-w) = corr w := by rw [e3, e2, e1]; ring
  rcases cfg with ⟨kd, ph, la⟩
  refine ⟨?_, ?_, ?_, ?_, ?_, ?_, ?_⟩
  · cases kd <;> cases la <;> cases c <;> rcases hs with rfl | rfl <;>
      simp [T1, switchChannel, d1 _ h16]
  · cases kd <;> cases la <;> cases c <;> rcases hs with rfl | rfl <;>
      simp [T2, switchChannel, d2 _ h16]
  · cases kd <;> cases la <;> cases c <;>
      simp [TC, d3 _ h16, oddSign, d6 _ h16, e4] <;>
      (by_cases hm : iK ∈ oddKeldysh <;> simp [hm])
  · cases kd <;> cases la <;> cases c <;>
      simp [T1, T2, switchChannel, d4 _ h16]
  · cases kd <;> cases la <;> cases c <;>
      simp [TC, T1, T2, switchChannel, d5 _ h16, oddSign, d6 _ h16, d8 _ h16, e4] <;>
      (by_cases hm : iK ∈ oddKeldysh <;> simp [hm])
  · cases kd <;> cases la <;> cases ph <;> simp [Tph, oddSign] <;>
      (by_cases hm : iK ∈ oddKeldysh <;> simp [hm])
  · cases kd <;> simp [TR, e4]

/-- Non-vacuity of the hypotheses: the bare Keldysh vertex (odd components, opposite sign of the two spin
components) has all symmetries. -/
example : Sym (K := ℚ) (R := ℂ) ⟨true, true, false⟩
    ⟨fun _ _ s α _ => if twos α % 2 = 1 then (if s = 0 then 1 else -1) else 0⟩ := by
  have h1 : ∀ α : Fin 4 → Bool, twos (α ∘ swapIn) = twos α := by decide +kernel
  have h2 : ∀ α : Fin 4 → Bool, twos (α ∘ swapOut) = twos α := by decide +kernel
  have h3 : ∀ α : Fin 4 → Bool, twos (α ∘ inOut) = twos α := by decide +kernel
  have hs : ∀ s, s < 2 → s = 0 ∨ s = 1 := by omega
  have hc : ∀ α, twos α % 2 = 1 → conjSign false α = 1 := by intro α h; simp [conjSign, h]
  refine ⟨?_, ?_, ?_, ?_, ?_, ?_, ?_⟩
  · intro h c s α ν hlt; rcases hs s hlt with rfl | rfl <;> simp [h1]
  · intro h c s α ν hlt; rcases hs s hlt with rfl | rfl <;> simp [h2]
  · intro _ h c s α ν hlt
    by_cases ht : twos α % 2 = 1
    · rcases hs s hlt with rfl | rfl <;> simp [h3, ht, hc]
    · simp [h3, ht]
  · intro h; cases h
  · intro _ _ h c s α ν hlt
    by_cases ht : twos α % 2 = 1
    · rcases hs s hlt with rfl | rfl <;> simp [ht, hc]
    · simp [ht]
  · intro h; cases h
  · intro h; cases h

end Verif.Symmetries
