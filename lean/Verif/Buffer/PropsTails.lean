import Verif.Buffer.Model
import Verif.Buffer.Spec
import Mathlib.Tactic.Linarith
import Mathlib.Tactic.FieldSimp

/-! C122: tails beyond the frequency box at finite temperature (imaginary frequencies). -/
namespace Verif.Buffer
open Verif

variable {V : Type} [AddCommGroup V] [Module ℚ V]

/-- **C122** (self-energy). Beyond the box the self-energy is the value stored at the nearer end of the box,
continued with `1/|w|`; at the end of the box it is the stored value itself. -/
theorem c122_selfenergy {wmax : ℚ} (hw : 0 < wmax) {n : Nat} {val : Int → Res V} {first last : V}
    (h0 : val 0 = .ok first) (h1 : val ((n : Int) - 1) = .ok last) (w : ℚ) :
    (w < 0 → tailSE wmax n val w = .ok (powerTail 1 (-wmax) w first)) ∧
    (0 < w → tailSE wmax n val w = .ok (powerTail 1 wmax w last)) ∧
    tailSE wmax n val (-wmax) = .ok first ∧ tailSE wmax n val wmax = .ok last := by
  have hne : wmax ≠ 0 := hw.ne'
  refine ⟨fun h => ?_, fun h => ?_, ?_, ?_⟩
  · simp [tailSE, h.le, h0, bind, Except.bind, pure, Except.pure, powerTail, abs_of_pos hw]
  · simp [tailSE, not_le.2 h, h1, bind, Except.bind, pure, Except.pure, powerTail, abs_of_pos hw]
  · simp [tailSE, hw.le, h0, bind, Except.bind, pure, Except.pure, abs_of_pos hw, hne]
  · simp [tailSE, not_le.2 hw, h1, bind, Except.bind, pure, Except.pure, abs_of_pos hw, hne]

/-- **C122** (one bosonic frequency). For negative frequencies the tail is the `1/w²` continuation of the value
at the lower end; for positive ones this is the continuation of the value at the upper end exactly if the two
stored values agree. -/
theorem c122_one_frequency_partial {wmax : ℚ} (hw : 0 < wmax) {n : Nat} {val : Int → Res V} {first last : V}
    (h0 : val 0 = .ok first) (h1 : val ((n : Int) - 1) = .ok last) (w : ℚ) :
    (w < 0 → tailK1 wmax val w = .ok (powerTail 2 (-wmax) w first)) ∧
    (0 < w → (tailK1 wmax val w = .ok (powerTail 2 wmax w last) ↔ first = last)) := by
  have key : ∀ w : ℚ, tailK1 wmax val w = .ok (powerTail 2 wmax w first) := by
    intro w
    simp only [tailK1, h0, bind, Except.bind, pure, Except.pure, powerTail, abs_of_pos hw]
    congr 2
    rw [div_pow, sq, sq]
  refine ⟨fun h => ?_, fun h => ?_⟩
  · rw [key w]; simp [powerTail]
  · rw [key w]
    constructor
    · intro e
      have e := Except.ok.inj e
      simp only [powerTail] at e
      have hc : ((|wmax| / |w|) ^ 2 : ℚ) ≠ 0 := by
        apply pow_ne_zero
        exact div_ne_zero (abs_ne_zero.2 hw.ne') (abs_ne_zero.2 h.ne')
      have := congrArg (fun x => ((|wmax| / |w|) ^ 2 : ℚ)⁻¹ • x) e
      simpa [smul_smul, inv_mul_cancel₀ hc] using this
    · intro e; rw [e]

/-- **C122** is false for data that are not symmetric: at the positive end of the box the value stored at the
*negative* end is returned. -/
theorem c122_one_frequency_refuted :
    ¬ ∀ (wmax : ℚ) (n : Nat) (val : Int → Res ℚ) (last : ℚ), 0 < wmax → (∃ x, val 0 = .ok x) →
      val ((n : Int) - 1) = .ok last → tailK1 wmax val wmax = .ok last := by
  intro h
  have := h 2 3 (fun i => .ok (i : ℚ)) 2 (by norm_num) ⟨0, rfl⟩ (by norm_num)
  simp [tailK1, bind, Except.bind, pure, Except.pure] at this

/-- **C122** (two frequencies). If the bosonic frequency lies in the box, the tail in the fermionic frequency is
the `1/v²` continuation of the value stored at the lower end, and, for bosonic frequencies without the rounding
correction, at the upper end, on the grid line of the look-up. -/
theorem c122_two_frequencies_partial {wmax vmax : ℚ} (hv : 0 < vmax) {n : Nat} {look : ℚ → Res Int}
    {val : Int → Int → Res V} {w : ℚ} (hw : |w| ≤ wmax) {i c : Int} (hl : look w = .ok i)
    (hc : Freqs.signFlipInt w = .ok c) {first last : V} (h0 : val i 0 = .ok first)
    (h1 : val i ((n : Int) - 1 + c) = .ok last) (v : ℚ) :
    (v ≤ -vmax → tailK2 wmax vmax n look val w v = .ok (powerTail 2 (-vmax) v first)) ∧
    (-vmax < v → tailK2 wmax vmax n look val w v = .ok (powerTail 2 vmax v last)) := by
  have hn : ¬ |w| > wmax := not_lt.2 hw
  have hp : ∀ x : V, (vmax * vmax / (v * v)) • x = powerTail 2 vmax v x := by
    intro x
    rw [powerTail, abs_of_pos hv, div_pow, sq_abs, sq, sq]
  refine ⟨fun h => ?_, fun h => ?_⟩
  · simp only [tailK2, if_neg hn, hl, hc, if_pos h, h0, bind, Except.bind, pure, Except.pure]
    rw [hp]; simp [powerTail]
  · simp only [tailK2, if_neg hn, hl, hc, if_neg (not_le.2 h), h1, bind, Except.bind, pure, Except.pure]
    rw [hp]

/-- **C122** is false for bosonic frequencies with a rounding correction: there the upper end of the data is the
last grid point but one, at `v0 < vmax`, and its value is continued as if it were stored at `vmax`; it comes out
too large by the factor `(vmax/v0)²`. -/
theorem c122_rounding_refuted {wmax vmax v0 : ℚ} (hv : 0 < vmax) {n : Nat} {look : ℚ → Res Int}
    {val : Int → Int → Res V} {w : ℚ} (hw : |w| ≤ wmax) {i : Int} (hl : look w = .ok i)
    (hc : Freqs.signFlipInt w = .ok (-1)) {last : V} (h1 : val i ((n : Int) - 2) = .ok last)
    (h0 : 0 < v0) (v : ℚ) (hvv : -vmax < v) :
    tailK2 wmax vmax n look val w v = .ok ((vmax / v0) ^ 2 • powerTail 2 v0 v last) := by
  have hn : ¬ |w| > wmax := not_lt.2 hw
  simp only [tailK2, if_neg hn, hl, hc, if_neg (not_le.2 hvv),
    show (n : Int) - 1 + -1 = (n : Int) - 2 by ring, h1, bind, Except.bind, pure, Except.pure]
  congr 1
  rw [powerTail, smul_smul, abs_of_pos h0]
  congr 1
  rw [div_pow, div_pow, sq_abs, sq, sq, sq]
  field_simp

/-- **C122** is false in the bosonic direction: just beyond the box the value is zero, whatever is stored at its
end (there is no `1/w²` tail). -/
theorem c122_bosonic_refuted {wmax vmax : ℚ} {n : Nat} {look lookV : ℚ → Res Int} {val : Int → Int → Res V}
    {val3 : Int → Int → Int → Res V} {w : ℚ} (hw : wmax < |w|) (v vp : ℚ) :
    tailK2 wmax vmax n look val w v = .ok 0 ∧ tailK3 wmax vmax n look lookV val3 w v vp = .ok 0 := by
  constructor
  · simp only [tailK2, if_pos hw]; rfl
  · simp only [tailK3, if_pos hw]; rfl

/-- What the tail does with one of two fermionic frequencies: index that is read and exponent of the tail. -/
def axisChoice (vmax : ℚ) (last inner : Int) (v : ℚ) : Int × Nat :=
  if v ≤ -vmax then (0, 2) else if v ≥ vmax then (last, 2) else (inner, 0)

/-- **C122** (three frequencies). If the bosonic frequency lies in the box, each fermionic frequency beyond the
box contributes its own factor `(vmax/v)²` and the value is read at the corresponding end; a fermionic frequency
inside the box is replaced by the grid point below it. -/
theorem c122_three_frequencies_partial {wmax vmax : ℚ} (hv : 0 < vmax) {n : Nat} {look lookV : ℚ → Res Int}
    {val : Int → Int → Int → Res V} {w v vp : ℚ} (hw : |w| ≤ wmax) {i c k k' : Int} (hl : look w = .ok i)
    (hc : Freqs.signFlipInt w = .ok c) (hk : lookV v = .ok k) (hk' : lookV vp = .ok k') {x : V}
    (hx : val i (axisChoice vmax ((n : Int) - 1 + c) k v).1 (axisChoice vmax ((n : Int) - 1 + c) k' vp).1 = .ok x) :
    tailK3 wmax vmax n look lookV val w v vp
      = .ok (powerTail (axisChoice vmax ((n : Int) - 1 + c) k v).2 vmax v
          (powerTail (axisChoice vmax ((n : Int) - 1 + c) k' vp).2 vmax vp x)) := by
  have hn : ¬ |w| > wmax := not_lt.2 hw
  have ax : ∀ (u : ℚ) (m : Int), lookV u = .ok m →
      tailAxis vmax n lookV c u = .ok ((axisChoice vmax ((n : Int) - 1 + c) m u).1,
        (|vmax| / |u|) ^ (axisChoice vmax ((n : Int) - 1 + c) m u).2) := by
    intro u m hm
    unfold tailAxis axisChoice
    have e : vmax * vmax / (u * u) = (|vmax| / |u|) ^ 2 := by rw [div_pow, sq_abs, sq_abs, sq, sq]
    by_cases h1 : u ≤ -vmax
    · simp only [if_pos h1, pure, Except.pure, e]
    · by_cases h2 : u ≥ vmax
      · simp only [if_neg h1, if_pos h2, pure, Except.pure, e]
      · simp only [if_neg h1, if_neg h2, hm, bind, Except.bind, pure, Except.pure, pow_zero]
  simp only [tailK3, if_neg hn, hl, hc, ax v k hk, ax vp k' hk', hx, bind, Except.bind, pure, Except.pure,
    powerTail, smul_smul, one_mul]

/-- **C122** is false between grid points: with the other fermionic frequency beyond the box the value is that of
the grid point below, although inside the box the data are interpolated linearly.  Here the stored data are
linear in `v` (entry `k` is `k`), the look-up finds the cell of `v = 1/2`, and the tail returns the value of
grid point zero. -/
theorem c122_between_refuted :
    ¬ ∀ (val : Int → Int → Int → Res ℚ) (vp : ℚ), 1 ≤ vp → (∀ i j k, val i j k = .ok (j : ℚ)) →
      tailK3 4 1 2 (fun _ => .ok 0) (fun v => .ok ⌊v⌋) val 0 (1/2) vp = .ok (powerTail 2 1 vp (1/2)) := by
  intro h
  have := h (fun _ j _ => .ok (j : ℚ)) 1 (le_refl _) (fun _ _ _ => rfl)
  have hc : Freqs.signFlipInt 0 = .ok 0 := by decide +kernel
  simp only [tailK3, hc, tailAxis, bind, Except.bind, pure, Except.pure, powerTail] at this
  norm_num at this

/-- A bosonic frequency with rounding correction: `w = 2` (in units of `πT`). -/
example : Freqs.signFlipInt 2 = .ok (-1) := by decide +kernel

/-- The numbers of the rounding case: box up to 9, last usable point at 7 with value 1. At `v = 9` the power law
gives `49/81`, the code 1. -/
example : tailK2 4 9 10 (fun _ => .ok 0) (fun _ j => .ok (if j = 8 then (1 : ℚ) else 0)) 2 9 = .ok 1 ∧
    powerTail 2 7 9 (1 : ℚ) = 49 / 81 := by
  constructor
  · have hc : Freqs.signFlipInt 2 = .ok (-1) := by decide +kernel
    simp only [tailK2, hc, bind, Except.bind, pure, Except.pure]
    norm_num
  · simp [powerTail]; norm_num

end Verif.Buffer
