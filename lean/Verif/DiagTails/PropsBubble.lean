import Verif.DiagTails.Lemmas
import Verif.SpinSum.Props
import Mathlib.Analysis.Real.Pi.Bounds

/-! C130: the tails of a bubble with its two vertices. -/
namespace Verif.DiagTails
open Complex MeasureTheory Filter Topology Verif.Tails Keldysh SpinSum

/-- A side of the bubble whose component for equal spins is the sum of the other two. -/
def EqualSpins (S : Side ℂ) : Prop := S.val 2 = S.val 0 + S.val 1 ∧ S.w 2 = S.w 0 + S.w 1

/-- For fixed vertices the tail combination is the spin sum of the integrand, with the integrated pair of propagators
in place of its value at a frequency. -/
theorem combination (sbe : Bool) (k : Class) (ch : Ch) (spin : Nat) (hs : spin < 2) (L R : Side ℂ) (hL : EqualSpins L)
    (hR : EqualSpins R) (P : ℂ) : bubbleTail sbe k ch spin L R P = scalar sbe k ch spin L R P := by
  obtain ⟨l1, l2⟩ := hL
  obtain ⟨r1, r2⟩ := hR
  have i2 : spin = 0 ∨ spin = 1 := by omega
  rcases i2 with rfl | rfl <;> cases ch <;> cases sbe <;> cases k <;>
    simp [bubbleTail, scalar, summed, l1, l2, r1, r2] <;> ring

theorem scalar_linear (sbe : Bool) (k : Class) (ch : Ch) (spin : Nat) (L R : Side ℂ) (P : ℂ) :
    scalar sbe k ch spin L R P = scalar sbe k ch spin L R 1 * P := by
  unfold scalar
  dsimp only
  split_ifs <;> ring

/-- C130: if `Pival` is the contribution of the frequencies outside of the box to the integral of the pair of
propagators, and both vertices have reached asymptotic values there, then the correction built from `Pival` and from
the vertices at the frequency that stands for infinity is the contribution of the frequencies outside of the box to
the integral of the bubble integrand, for every class, channel and spin component and both decompositions. -/
theorem c130_bubble (sbe : Bool) (k : Class) (ch : Ch) (spin : Nat) (hs : spin < 2) (vmin vmax : ℝ) (hv : vmin ≤ -1 / 9)
    (pair : ℝ → ℂ) (P : ℂ) (hP : IsTail pair vmin vmax P) (L R : ℝ → Side ℂ) (L₀ R₀ : Side ℂ)
    (hL : ∀ ν, ν ≤ vmin ∨ vmax ≤ ν → L ν = L₀) (hR : ∀ ν, ν ≤ vmin ∨ vmax ≤ ν → R ν = R₀)
    (eL : EqualSpins L₀) (eR : EqualSpins R₀) :
    IsTail (fun ν => scalar sbe k ch spin (L ν) (R ν) (pair ν)) vmin vmax
      (bubbleTail sbe k ch spin (L (atInfinity vmin)) (R (atInfinity vmin)) P) := by
  have hi : atInfinity vmin ≤ vmin := by unfold atInfinity; linarith
  rw [hL _ (.inl hi), hR _ (.inl hi), combination sbe k ch spin hs L₀ R₀ eL eR, scalar_linear]
  refine isTail_congr (hP.smul (scalar sbe k ch spin L₀ R₀ 1)) fun ν hν => ?_
  rw [hL ν hν, hR ν hν, scalar_linear sbe k ch spin L₀ R₀ (pair ν)]

/-- For boxes that start closer to zero the vertices are read inside of the box. -/
theorem c130_inside_refuted (vmin vmax : ℝ) (h1 : -1 / 9 < vmin) (h2 : vmin < 0) (h3 : 1 ≤ vmax) (pair : ℝ → ℂ) (P : ℂ)
    (hP : IsTail pair vmin vmax P) (h0 : P ≠ 0) : ∃ L R : ℝ → Side ℂ, ∃ L₀ R₀ : Side ℂ,
      (∀ ν, ν ≤ vmin ∨ vmax ≤ ν → L ν = L₀) ∧ (∀ ν, ν ≤ vmin ∨ vmax ≤ ν → R ν = R₀) ∧ EqualSpins L₀ ∧ EqualSpins R₀ ∧
      ¬ IsTail (fun ν => scalar false .k2 .a 0 (L ν) (R ν) (pair ν)) vmin vmax
        (bubbleTail false .k2 .a 0 (L (atInfinity vmin)) (R (atInfinity vmin)) P) := by
  let one : Side ℂ := ⟨fun s => if s = 0 then 1 else if s = 2 then 1 else 0, fun _ => 0⟩
  let zero : Side ℂ := ⟨fun _ => 0, fun _ => 0⟩
  classical
  refine ⟨fun ν => if ν ≤ vmin ∨ vmax ≤ ν then one else zero, fun _ => one, one, one,
    fun ν h => if_pos h, fun _ _ => rfl, by simp [EqualSpins, one], by simp [EqualSpins, one], fun h => ?_⟩
  have hi : ¬ (atInfinity vmin ≤ vmin ∨ vmax ≤ atInfinity vmin) := by
    unfold atInfinity
    rintro (h | h) <;> linarith
  have t : IsTail (fun ν => scalar false .k2 .a 0 ((fun ν => if ν ≤ vmin ∨ vmax ≤ ν then one else zero) ν) one (pair ν))
      vmin vmax P := isTail_congr hP fun ν hν => by
    show pair ν = scalar false .k2 .a 0 (if ν ≤ vmin ∨ vmax ≤ ν then one else zero) one (pair ν)
    rw [if_pos hν]
    simp [scalar, summed, one]
  have e := h.unique t
  dsimp only at e
  rw [if_neg hi] at e
  apply h0
  rw [← e]
  simp [bubbleTail, zero]

/-- Change of units. -/
theorem isTail_scale {f : ℝ → ℂ} {vmin vmax c : ℝ} {x : ℂ} (hc : 0 < c) (h : IsTail (fun v => f (c * v)) vmin vmax x) :
    IsTail f (c * vmin) (c * vmax) (c * x) := by
  have h' : Tendsto (fun R : ℝ => R / c) atTop atTop := tendsto_id.atTop_div_const hc
  have := (Tendsto.const_mul (c : ℂ) (h.comp h'))
  refine this.congr fun R => ?_
  simp only [Function.comp]
  have e1 := intervalIntegral.smul_integral_comp_mul_left (a := -(R / c)) (b := vmin) f c
  have e2 := intervalIntegral.smul_integral_comp_mul_left (a := vmax) (b := R / c) f c
  rw [mul_add]
  have k : c * (R / c) = R := by field_simp
  rw [mul_neg, k] at e1
  rw [k] at e2
  rw [← e1, ← e2, Complex.real_smul, Complex.real_smul]

/-- C130: completing by quadrature over the integer frequencies gives the same as completing with the analytic tail
when the integration is vectorised. -/
theorem c130_quadrature_partial (prefactor : ℂ) (T : ℝ) (hT : 0 < T) (f : ℝ → ℂ) (vmin vmax : ℝ) (tail quad : ℂ)
    (ht : IsTail f (Real.pi * T * vmin) (Real.pi * T * vmax) tail)
    (hq : IsTail (fun v => f (Real.pi * T * v)) vmin vmax quad) :
    added false true prefactor T tail quad = added true true prefactor T tail quad := by
  have h := isTail_scale (mul_pos Real.pi_pos hT) hq
  have e := ht.unique h
  simp only [added, Bool.false_eq_true, if_false, if_true]
  rw [e]; push_cast; ring

/-- When it is not, the quadrature adds the tails twice. -/
theorem c130_quadrature_refuted (prefactor : ℂ) (T : ℝ) (hT : 0 < T) (f : ℝ → ℂ) (vmin vmax : ℝ) (tail quad : ℂ)
    (ht : IsTail f (Real.pi * T * vmin) (Real.pi * T * vmax) tail)
    (hq : IsTail (fun v => f (Real.pi * T * v)) vmin vmax quad) (h0 : prefactor * tail ≠ 0) :
    added false false prefactor T tail quad = 2 * added true false prefactor T tail quad ∧
    added false false prefactor T tail quad ≠ added true false prefactor T tail quad := by
  have h := isTail_scale (mul_pos Real.pi_pos hT) hq
  have e := ht.unique h
  have k : added false false prefactor T tail quad = 2 * added true false prefactor T tail quad := by
    simp only [added, Bool.false_eq_true, if_false, if_true]
    rw [e]; push_cast; ring
  refine ⟨k, fun h' => ?_⟩
  rw [h'] at k
  simp only [added, if_true] at k
  apply h0
  linear_combination -k

/-- A case: the bubble of two propagators of a level in the middle of the box, with unit vertices; its tail is not
zero. -/
example : ∃ P : ℂ, P ≠ 0 ∧ IsTail (bubbleValue true false false (prop2 true ⟨1, 0, 1, 0, 0, 0⟩ 0)
    (single2 true ⟨1, 0, 1, 0, 0, 0⟩ 0) 0) (-2) 2 P := by
  obtain ⟨x, h1, h2⟩ := c98_matsubara_phs ⟨1, 0, 1, 0, 0, 0⟩ 0 0 (-2) 2 (by norm_num) 0 false false (by norm_num) (by norm_num)
  refine ⟨x, fun h => ?_, h2⟩
  rw [h] at h1
  simp [matsubaraTail, hybridisation, atPHS] at h1
  norm_num at h1

end Verif.DiagTails
