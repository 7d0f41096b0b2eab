import Verif.Hybrid.Lemmas
import Mathlib.Analysis.Calculus.Deriv.Add
import Mathlib.Analysis.Calculus.Deriv.Inv
import Mathlib.Analysis.Calculus.Deriv.Pow

/-
C105: the hybrid grid map. C106: look-up on the hybrid grid. C107: parameters of the hybrid grid.
-/
namespace Verif.Hybrid
open GridMap (sgn)

/-! ### C105 -/

/-- C105: for valid parameters the map from the auxiliary axis to frequencies is odd and strictly increasing on an
interval that contains the whole auxiliary grid, and reaches the largest frequency at its end. -/
theorem c105_increasing {g : Grid} (h : g.Valid) : g.tUpper < g.rescale ∧
    (∀ s t, -g.rescale < s → s < t → t < g.rescale → g.freq s < g.freq t) ∧
    (∀ t, g.freq (-t) = -g.freq t) ∧ g.freq 0 = 0 ∧ g.freq g.tUpper = g.wUpper ∧ g.freq (-g.tUpper) = -g.wUpper := by
  have hodd : ∀ t, g.freq (-t) = -g.freq t := by
    intro t
    rw [freq_eq, freq_eq, abs_neg]
    rcases lt_trichotomy t 0 with a | a | a
    · rw [sgn_neg a, sgn_pos (by linarith)]; ring
    · subst a; simp [sgn_zero]
    · rw [sgn_pos a, sgn_neg (by linarith)]; ring
  have hu : g.freq g.tUpper = g.wUpper := by
    rw [freq_eq, abs_of_pos h.t, sgn_pos h.t, mul_one, F_upper h]
  refine ⟨t_lt_rescale h, fun s t hs hst ht => ?_, hodd, by rw [freq_eq, sgn_zero, mul_zero], hu, by rw [hodd, hu]⟩
  rw [freq_eq, freq_eq]
  exact odd_mono (F_zero h) (fun s t a b c => F_mono h a b c) hs hst ht

/-- C105: the map to the auxiliary axis is its inverse: for all frequencies, and for all points of the auxiliary axis
below the pole. -/
theorem c105_inverse {g : Grid} (h : g.Valid) :
    (∀ t, |t| < g.rescale → g.tOf (g.freq t) = t) ∧ (∀ w, g.freq (g.tOf w) = w) ∧ (∀ w, |g.tOf w| < g.rescale) := by
  refine ⟨fun t ht => ?_, fun w => ?_, fun w => ?_⟩
  · rw [tOf_eq, freq_eq]
    exact odd_inv (G_F h (abs_nonneg t) ht) fun h0 => F_pos h (abs_pos.mpr h0) ht
  · rw [freq_eq, tOf_eq]
    refine odd_inv (F_G h (abs_nonneg w)).1 fun h0 => ?_
    obtain ⟨e, nn, _⟩ := F_G h (abs_nonneg w)
    refine lt_of_le_of_ne nn fun hz => ?_
    rw [← hz, F_zero h] at e
    exact h0 (abs_eq_zero.mp e.symm)
  · obtain ⟨_, nn, lt⟩ := F_G h (abs_nonneg w)
    rw [tOf_eq, abs_mul, abs_of_nonneg nn]
    rcases lt_trichotomy w 0 with a | a | a
    · rw [sgn_neg a]; simpa using lt
    · rw [a, sgn_zero]; simpa using rescalePos h
    · rw [sgn_pos a]; simpa using lt

/-- Frequencies in the box are mapped into the auxiliary grid, frequencies outside are not. -/
theorem c105_box {g : Grid} (h : g.Valid) (w : ℝ) : |g.tOf w| ≤ g.tUpper ↔ |w| ≤ g.wUpper := by
  obtain ⟨tr, mono, odd, z, u, l⟩ := c105_increasing h
  obtain ⟨i1, i2, i3⟩ := c105_inverse h
  have ht := i3 w
  rw [abs_lt] at ht
  constructor
  · intro hw
    rw [abs_le] at hw ⊢
    have e := i2 w
    constructor
    · rcases eq_or_lt_of_le hw.1 with a | a
      · rw [← e, ← a, l]
      · have := mono _ _ (by linarith) a ht.2; rw [l, e] at this; exact this.le
    · rcases eq_or_lt_of_le hw.2 with a | a
      · rw [← e, a, u]
      · have := mono _ _ ht.1 a tr; rw [u, e] at this; exact this.le
  · intro hw
    rw [abs_le] at hw ⊢
    have e := i2 w
    constructor
    · by_contra c
      have := mono _ _ ht.1 (not_le.mp c) (by have := h.t; linarith)
      rw [l, e] at this
      linarith
    · by_contra c
      have := mono _ _ (by have := h.t; linarith) (not_le.mp c) ht.2
      rw [u, e] at this
      linarith

/-- C105: the three pieces meet, with equal values and equal slopes, at the two section boundaries. -/
theorem c105_smooth {g : Grid} (h : g.Valid) :
    g.freq g.a0 = g.p0 ∧ g.freq g.a1 = g.p1 ∧
    HasDerivAt (fun t => t * t / g.curv) (1 / g.slope) g.a0 ∧
    HasDerivAt (fun t => g.p0 + (t - g.a0) / g.slope) (1 / g.slope) g.a0 ∧
    HasDerivAt (fun t => g.p0 + (t - g.a0) / g.slope) (1 / g.slope) g.a1 ∧
    HasDerivAt (fun t => g.fac / (1 - t / g.rescale)) (1 / g.slope) g.a1 ∧
    g.a0 * g.a0 / g.curv = g.p0 ∧ g.p0 + (g.a1 - g.a0) / g.slope = g.p1 ∧ g.fac / (1 - g.a1 / g.rescale) = g.p1 := by
  have hs := (slopePos h).ne'; have hc := (curvPos h).ne'; have hp := h.p0.ne'; have hT := (tempPos h).ne'
  have hp1 := (p1pos h).ne'
  have r1 : g.fac / (1 - g.a1 / g.rescale) = g.p1 := by
    have e : 1 - g.a1 / g.rescale = g.p1 / g.temp := by
      rw [a1_slope h, rescale_slope h]
      field_simp
      unfold Grid.temp; ring
    rw [e]; unfold Grid.fac; field_simp
  have r2 : g.p0 + (g.a1 - g.a0) / g.slope = g.p1 := by
    rw [a1_slope h, a0_slope h]; field_simp; ring
  have r3 : g.a0 * g.a0 / g.curv = g.p0 := by
    rw [a0_slope h, curv_slope h]; field_simp; ring
  have lin : ∀ x, HasDerivAt (fun t => g.p0 + (t - g.a0) / g.slope) (1 / g.slope) x := fun x =>
    HasDerivAt.const_add g.p0 (HasDerivAt.div_const (HasDerivAt.sub_const g.a0 (hasDerivAt_id x)) g.slope)
  have a1p : 0 < g.a1 := lt_of_lt_of_le (a0Pos h) (a0_le_a1 h)
  refine ⟨?_, ?_, ?_, lin _, lin _, ?_, r3, r2, r1⟩
  · rw [freq_eq, abs_of_pos (a0Pos h), sgn_pos (a0Pos h), mul_one, Grid.F, if_neg (lt_irrefl _)]
    split_ifs with c
    · simp
    · have : g.a1 = g.a0 := le_antisymm (not_lt.mp c) (a0_le_a1 h)
      have e : g.p1 = g.p0 := by rw [← r2, this]; simp
      rw [← this, r1, e]
  · rw [freq_eq, abs_of_pos a1p, sgn_pos a1p, mul_one, Grid.F, if_neg (not_lt.mpr (a0_le_a1 h)), if_neg (lt_irrefl _), r1]
  · have := ((hasDerivAt_id g.a0).mul (hasDerivAt_id g.a0)).div_const g.curv
    refine this.congr_deriv ?_
    simp only [id]
    rw [a0_slope h, curv_slope h]
    field_simp
    ring
  · have e : 1 - g.a1 / g.rescale = g.p1 / g.temp := by
      rw [a1_slope h, rescale_slope h]
      field_simp
      unfold Grid.temp; ring
    have hne : 1 - g.a1 / g.rescale ≠ 0 := by rw [e]; exact div_ne_zero hp1 hT
    have := HasDerivAt.const_mul g.fac (HasDerivAt.inv (HasDerivAt.const_sub 1 (HasDerivAt.div_const (hasDerivAt_id g.a1) g.rescale)) hne)
    refine (this.congr_deriv ?_).congr_of_eventuallyEq (Filter.Eventually.of_forall fun x => by
      simp [div_eq_mul_inv])
    simp only [id] at *
    rw [e, rescale_slope h]
    unfold Grid.fac
    field_simp

/-- Valid parameters exist: three sections of different length. -/
example : ({ n := 5, p0 := 1, p1 := 3, wUpper := 15, wLower := -15, tUpper := 2, tLower := -2, positive := false } : Grid).Valid :=
  ⟨by norm_num, by norm_num, by norm_num, by norm_num⟩

/-! ### C106 -/

theorem freq_zero (g : Grid) : g.freq 0 = 0 := by rw [freq_eq, sgn_zero, mul_zero]

section
variable {g : Grid} (hb : g.Built)
include hb

theorem spacing_one : g.spacing = 1 := by
  have hn : (2 : ℝ) ≤ g.n := by exact_mod_cast hb.n
  have hne : (g.n : ℝ) - 1 ≠ 0 := by linarith
  unfold Grid.spacing
  rw [hb.tL, hb.tU, div_eq_one_iff_eq hne]
  cases g.positive <;> simp
  ring

theorem aux_eq (i : Nat) : g.aux i = g.tLower + i := by
  unfold Grid.aux
  rw [spacing_one hb, one_mul]
  split_ifs with c1 c2
  · obtain ⟨o, p, e⟩ := c1
    have : g.n = 2 * i + 1 := by omega
    have p' : g.positive = false := by simpa using p
    rw [hb.tL, hb.tU, this, p']
    push_cast
    simp
    ring
  · obtain ⟨p, e⟩ := c2
    rw [hb.tL, e]
    simp [p]
  · rfl

theorem all_eq (i : Nat) : g.all i = g.freq (g.tLower + i) := by
  have z := freq_zero g
  have e := aux_eq hb i
  unfold Grid.all
  unfold Grid.aux at e
  rw [spacing_one hb, one_mul] at *
  split_ifs with c1 c2
  · rw [if_pos c1] at e; rw [← e, z]
  · rw [if_neg c1, if_pos c2] at e; rw [← e, z]
  · rfl

theorem last_eq : g.tLower + ((g.n - 1 : Nat) : ℝ) = g.tUpper := by
  have hn := hb.n
  rw [hb.tL, hb.tU, Nat.cast_sub (by omega)]
  cases g.positive <;> simp; ring

end

section
variable {g : Grid} (hv : g.Valid) (hb : g.Built)
include hv hb

/-- C106: the frequencies are strictly increasing, begin at the lower and end at the upper edge of the box. -/
theorem c106_points : g.all 0 = g.wLower ∧ g.all (g.n - 1) = g.wUpper ∧
    (∀ i j, i < j → j < g.n → g.all i < g.all j) := by
  obtain ⟨tr, mono, odd, z, u, l⟩ := c105_increasing hv
  have hn := hb.n
  refine ⟨?_, ?_, fun i j hij hj => ?_⟩
  · rw [all_eq hb, hb.wL, hb.tL]
    cases g.positive <;> simp [z, l]
  · rw [all_eq hb, last_eq hb, u]
  · rw [all_eq hb, all_eq hb]
    have t0 := hv.t
    have le : g.tLower + (j : ℝ) ≤ g.tUpper := by
      rw [← last_eq hb]
      have : (j : ℝ) ≤ ((g.n - 1 : Nat) : ℝ) := by exact_mod_cast (by omega)
      linarith
    have tl : -g.tUpper ≤ g.tLower := by rw [hb.tL]; split_ifs <;> linarith
    have hij' : (i : ℝ) < j := by exact_mod_cast hij
    have i0 : (0 : ℝ) ≤ i := Nat.cast_nonneg i
    exact mono _ _ (by linarith) (by linarith) (by linarith)

/-- C106: a symmetric grid has its frequencies in pairs of opposite sign. -/
theorem c106_symmetric (hp : g.positive = false) (i : Nat) (hi : i < g.n) : g.all (g.n - 1 - i) = -g.all i := by
  obtain ⟨tr, mono, odd, z, u, l⟩ := c105_increasing hv
  rw [all_eq hb, all_eq hb, ← odd]
  congr 1
  have := last_eq hb
  have tl : g.tLower = -g.tUpper := by rw [hb.tL, hp]; simp
  rw [Nat.cast_sub (by omega)]
  linarith

/-- C106: for every frequency in the box the look-up passes its assertions and returns a cell of the grid that holds the
frequency; below the left end of the cell it may lie only by what the safety margin of the look-up allows. -/
theorem c106_lookup (tol : ℝ) (ht : 1 / 10 ^ 12 ≤ tol) (w : ℝ) (h1 : g.wLower ≤ w) (h2 : w ≤ g.wUpper) :
    ∃ i : Nat, g.index tol w = .ok (i : Int) ∧ i + 1 < g.n ∧ w ≤ g.all (i + 1) ∧
      g.tLower + i ≤ g.tOf w + 1 / 10 ^ 12 ∧ (g.tLower + i ≤ g.tOf w → g.all i ≤ w) := by
  obtain ⟨tr, mono, odd, z, u, l⟩ := c105_increasing hv
  obtain ⟨i1, i2, i3⟩ := c105_inverse hv
  have hn := hb.n
  have t0 := hv.t
  set t := g.tOf w with htdef
  have hw : g.freq t = w := i2 w
  have hr := abs_lt.mp (i3 w)
  rw [← htdef] at hr
  have tl : -g.tUpper ≤ g.tLower := by rw [hb.tL]; split_ifs <;> linarith
  have monole : ∀ a b, -g.rescale < a → a ≤ b → b < g.rescale → g.freq a ≤ g.freq b := fun a b x y q => by
    rcases eq_or_lt_of_le y with e | e
    · rw [e]
    · exact (mono a b x e q).le
  -- position on the auxiliary axis
  have lo : g.tLower ≤ t := by
    by_contra c
    have := mono _ _ hr.1 (not_le.mp c) (by rw [hb.tL]; split_ifs <;> linarith)
    rw [hw] at this
    have e : g.freq g.tLower = g.wLower := by rw [hb.tL, hb.wL]; split_ifs <;> simp [z, l]
    linarith
  have hi : t ≤ g.tUpper := by
    by_contra c
    have := mono _ _ (by linarith) (not_le.mp c) hr.2
    rw [hw, u] at this
    linarith
  set x : ℝ := (t - g.tLower) + 1 / 10 ^ 12 with hx
  have x0 : 0 ≤ x := by have : (0 : ℝ) < 1 / 10 ^ 12 := by norm_num
                        linarith
  have tr' : trunc x = ⌊x⌋ := by simp [trunc, x0]
  have fl0 : 0 ≤ ⌊x⌋ := Int.floor_nonneg.mpr x0
  obtain ⟨k, hk⟩ : ∃ k : Nat, ⌊x⌋ = (k : Int) := ⟨⌊x⌋.toNat, by omega⟩
  have raw : g.rawIndex t = min ((g.n : Int) - 2) (k : Int) := by
    unfold Grid.rawIndex
    rw [← hx, tr', hk, max_eq_right (by omega)]
  have fk1 : (k : ℝ) ≤ x := by have := Int.floor_le x; rw [hk] at this; exact_mod_cast this
  have fk2 : x < (k : ℝ) + 1 := by have := Int.lt_floor_add_one x; rw [hk] at this; exact_mod_cast this
  set i : Nat := min (g.n - 2) k with hidef
  have rawi : g.rawIndex t = (i : Int) := by rw [raw, hidef]; omega
  have ik : (i : ℝ) ≤ k := by exact_mod_cast (min_le_right _ _)
  have lowi : g.tLower + i ≤ t + 1 / 10 ^ 12 := by linarith
  have upi : t ≤ g.tLower + ((i + 1 : Nat) : ℝ) := by
    by_cases c : k ≤ g.n - 2
    · have : i = k := min_eq_right c
      rw [this]; push_cast
      have : (0 : ℝ) < 1 / 10 ^ 12 := by norm_num
      linarith
    · have : i + 1 = g.n - 1 := by rw [hidef, min_eq_left (by omega)]; omega
      rw [this, last_eq hb]; exact hi
  have hin : i + 1 < g.n := by have : i ≤ g.n - 2 := min_le_left _ _; omega
  refine ⟨i, ?_, hin, ?_, lowi, fun c => ?_⟩
  · unfold Grid.index
    simp only [← htdef, rawi, spacing_one hb, aux_eq hb]
    have e1 : ((i : Int)).toNat = i := by simp
    have e2 : ((i : Int) + 1).toNat = i + 1 := by omega
    rw [e1, e2, if_neg (by norm_num), if_neg (by omega), if_neg (by push Not; linarith),
      if_neg (by push Not; left; have : (0 : ℝ) < 1 / 10 ^ 12 := by norm_num
                 linarith)]
  · rw [all_eq hb, ← hw]
    refine monole _ _ hr.1 upi ?_
    have : ((i + 1 : Nat) : ℝ) ≤ ((g.n - 1 : Nat) : ℝ) := by exact_mod_cast (by omega)
    have := last_eq hb
    linarith
  · rw [all_eq hb, ← hw]
    have i0 : (0 : ℝ) ≤ i := Nat.cast_nonneg i
    exact monole _ _ (by linarith) c hr.2

/-- C106, outside of the box: above it the last cell is used, without any check; below it by more than the tolerance
the look-up fails its assertion. -/
theorem c106_outside (tol : ℝ) (ht : 1 / 10 ^ 12 ≤ tol) (w : ℝ) :
    (g.wUpper < w → g.index tol w = .ok ((g.n : Int) - 2)) ∧
      (g.tOf w + tol < g.tLower → g.index tol w = .error .assertion) := by
  obtain ⟨tr, mono, odd, z, u, l⟩ := c105_increasing hv
  obtain ⟨i1, i2, i3⟩ := c105_inverse hv
  have hn := hb.n
  have t0 := hv.t
  have lst := last_eq hb
  have tl : -g.tUpper ≤ g.tLower := by rw [hb.tL]; split_ifs <;> linarith
  have hx : (0 : ℝ) < 1 / 10 ^ 12 := by norm_num
  constructor
  · intro h
    have hr := abs_lt.mp (i3 w)
    have hi : g.tUpper < g.tOf w := by
      by_contra c
      rcases eq_or_lt_of_le (not_lt.mp c) with e | e
      · have := i2 w
        rw [e, u] at this
        linarith
      · have := mono _ _ hr.1 e tr
        rw [i2 w, u] at this
        linarith
    have raw : g.rawIndex (g.tOf w) = (g.n : Int) - 2 := by
      unfold Grid.rawIndex
      have lo : ((g.n : Int) - 1 : Int) ≤ ⌊g.tOf w - g.tLower + 1 / 10 ^ 12⌋ := by
        rw [Int.le_floor]
        rw [Nat.cast_sub (by omega)] at lst
        push_cast at lst ⊢
        linarith
      have p : 0 ≤ g.tOf w - g.tLower + 1 / 10 ^ 12 := by
        have : (0 : ℝ) ≤ ((g.n - 1 : Nat) : ℝ) := Nat.cast_nonneg _
        linarith
      rw [trunc, if_pos p]
      omega
    unfold Grid.index
    simp only [raw, spacing_one hb, aux_eq hb]
    have e1 : ((g.n : Int) - 2).toNat = g.n - 2 := by omega
    have le : (((g.n - 2 : Nat)) : ℝ) ≤ ((g.n - 1 : Nat) : ℝ) := by exact_mod_cast (by omega)
    rw [e1, if_neg (by norm_num), if_neg (by omega), if_neg (by push Not; linarith), if_neg (by push Not; right; trivial)]
  · intro h
    have raw : g.rawIndex (g.tOf w) = 0 := by
      unfold Grid.rawIndex
      have p : g.tOf w - g.tLower + 1 / 10 ^ 12 < 0 := by linarith
      have c : ⌈g.tOf w - g.tLower + 1 / 10 ^ 12⌉ ≤ 0 := Int.ceil_le.mpr (by push_cast; linarith)
      rw [trunc, if_neg (not_le.mpr p)]
      omega
    unfold Grid.index
    simp only [raw, spacing_one hb, aux_eq hb]
    rw [if_neg (by norm_num), if_neg (by omega), if_pos (by push Not; simpa using h)]

/-- C106: a frequency of the grid is found in the cell that begins with it. -/
theorem c106_lookup_point (tol : ℝ) (ht : 1 / 10 ^ 12 ≤ tol) (j : Nat) (hj : j + 1 < g.n) :
    g.index tol (g.all j) = .ok (j : Int) := by
  obtain ⟨i1, i2, i3⟩ := c105_inverse hv
  have t0 := hv.t
  have tr := (c105_increasing hv).1
  have tl : -g.tUpper ≤ g.tLower := by rw [hb.tL]; split_ifs <;> linarith
  have le : (j : ℝ) ≤ ((g.n - 1 : Nat) : ℝ) := by exact_mod_cast (by omega)
  have lst := last_eq hb
  have j0 : (0 : ℝ) ≤ j := Nat.cast_nonneg j
  have e : g.tOf (g.all j) = g.tLower + j := by
    rw [all_eq hb]
    exact i1 _ (abs_lt.mpr ⟨by linarith, by linarith⟩)
  have hx : (0 : ℝ) < 1 / 10 ^ 12 := by norm_num
  have raw : g.rawIndex (g.tLower + j) = (j : Int) := by
    unfold Grid.rawIndex
    have f : ⌊(g.tLower + (j : ℝ) - g.tLower) + 1 / 10 ^ 12⌋ = (j : Int) := by
      rw [Int.floor_eq_iff]
      constructor
      · push_cast; linarith
      · have : (1 : ℝ) / 10 ^ 12 < 1 := by norm_num
        push_cast; linarith
    rw [trunc, if_pos (by linarith), f]
    omega
  unfold Grid.index
  simp only [e, raw, spacing_one hb, aux_eq hb]
  have e1 : ((j : Int)).toNat = j := by simp
  have e2 : ((j : Int) + 1).toNat = j + 1 := by omega
  rw [e1, e2, if_neg (by norm_num), if_neg (by omega), if_neg (by push Not; linarith),
    if_neg (by push Not; left; push_cast; linarith)]

end

/-! ### C107 -/

theorem make_built (n : Nat) (hn : 2 ≤ n) (pos : Bool) (p : ℝ × ℝ × ℝ) : (make n pos p).Built := by
  refine ⟨hn, rfl, ?_, rfl⟩
  show (if pos then (0 : ℝ) else -((n : ℝ) - 1) * (1 / 2)) = if pos then 0 else -(((n : ℝ) - 1) * (if pos then 1 else 1 / 2))
  cases pos
  · simp only [Bool.false_eq_true, if_false]; ring
  · simp

/-- What the constructor makes is valid whenever its boundaries are in order, and has the shape assumed for the look-up. -/
theorem c107_made_partial (n : Nat) (hn : 2 ≤ n) (pos : Bool) (p : ℝ × ℝ × ℝ) (h : 0 < p.1 ∧ p.1 ≤ p.2.1 ∧ p.2.1 ≤ p.2.2) :
    (make n pos p).Valid ∧ (make n pos p).Built := by
  have hn' : (2 : ℝ) ≤ n := by exact_mod_cast hn
  refine ⟨⟨h.1, h.2.1, h.2.2, ?_⟩, make_built n hn pos p⟩
  show 0 < ((n : ℝ) - 1) * (if pos then 1 else 1 / 2)
  exact mul_pos (by linarith) (by cases pos <;> norm_num)

/-- C107, what holds: the default boundaries of all grids but the one of the self-energy are in order at every scale. -/
theorem c107_guess_partial (k : Kind) (Δ : ℝ) (hΔ : 0 < Δ) (hk : ¬ (k.cls = 1 ∧ k.bosonic = false)) (p : ℝ × ℝ × ℝ)
    (hp : guess k Δ = some p) : 0 < p.1 ∧ p.1 ≤ p.2.1 ∧ p.2.1 ≤ p.2.2 := by
  unfold guess at hp
  split at hp <;> simp_all <;> subst hp <;> refine ⟨by positivity, ?_, ?_⟩ <;> simp <;> linarith

/-- The default boundaries of the self-energy are in order exactly above a scale. -/
theorem c107_selfenergy_partial (Δ : ℝ) (hΔ : 0 < Δ) :
    ∃ p, guess ⟨1, false⟩ Δ = some p ∧ ((0 < p.1 ∧ p.1 ≤ p.2.1 ∧ p.2.1 ≤ p.2.2) ↔ 25 / 27 ≤ Δ) := by
  refine ⟨_, rfl, ⟨fun h => ?_, fun h => ⟨by norm_num, ?_, ?_⟩⟩⟩
  · have := h.2.1; simp only at this; linarith
  · simp only; linarith
  · simp only; linarith

/-- C107 is false of the self-energy: the first boundary is not scaled with the hybridisation, and for small scales the
largest frequency of the grid is below the edge of the box it is meant to cover. -/
theorem c107_selfenergy_refuted (n : Nat) (hn : 2 ≤ n) (pos : Bool) (Δ : ℝ) (h1 : 1 / 20 ≤ Δ) (h2 : Δ ≤ 2 / 5) :
    ∃ p, guess ⟨1, false⟩ Δ = some p ∧ (make n pos p).all (n - 1) < (make n pos p).wUpper := by
  refine ⟨_, rfl, ?_⟩
  set g := make n pos (25, 27 * Δ, 40 * 15 * Δ) with hg
  have hb := make_built n hn pos (25, 27 * Δ, 40 * 15 * Δ)
  rw [← hg] at hb
  have hn' : (2 : ℝ) ≤ n := by exact_mod_cast hn
  have t0 : 0 < g.tUpper := by
    show 0 < ((n : ℝ) - 1) * (if pos then 1 else 1 / 2)
    exact mul_pos (by linarith) (by cases pos <;> norm_num)
  have e1 : g.p0 = 25 := rfl
  have e2 : g.p1 = 27 * Δ := rfl
  have e3 : g.wUpper = 40 * 15 * Δ := rfl
  have hq : g.quad = Δ * (15000 + 31671 * Δ) := by
    unfold Grid.quad Grid.temp; rw [e1, e2, e3]; ring
  have q0 : 0 < g.quad := by rw [hq]; nlinarith
  have ha : g.tUpper < g.a0 := by
    unfold Grid.a0
    rw [lt_div_iff₀ q0, e1, e3, hq]
    have : Δ * (15000 + 31671 * Δ) < 30000 * Δ := by nlinarith
    nlinarith
  have hl : g.all (n - 1) = g.freq g.tUpper := by
    rw [all_eq hb]; congr 1; exact last_eq hb
  rw [hl, freq_eq, abs_of_pos t0, sgn_pos t0, mul_one, Grid.F, if_pos ha]
  have hΔ : Δ ≠ 0 := by linarith
  have : g.tUpper * g.tUpper / g.curv = (15000 + 31671 * Δ) ^ 2 / 36000000 := by
    unfold Grid.curv
    rw [hq, e1, e3]
    have := t0.ne'
    have h5 : (15000 + 31671 * Δ) ≠ 0 := by linarith
    field_simp
    ring
  rw [this, e3, div_lt_iff₀ (by norm_num)]
  nlinarith

/-- C107 is false of an update of the boundaries: the second boundary is not limited by the largest frequency, and
beyond it the frequencies of the grid are not increasing. -/
theorem c107_update_refuted : ∃ (g : Grid) (b : ℝ × ℝ), g.Valid ∧ g.Built ∧ 0 < b.1 ∧ b.1 ≤ b.2 ∧
    4 < (g.update b).n ∧ (g.update b).all 4 < (g.update b).all 3 := by
  obtain ⟨v, hb⟩ := c107_made_partial 5 (by norm_num) false (1, 3, 15) ⟨by norm_num, by norm_num, by norm_num⟩
  refine ⟨make 5 false (1, 3, 15), (1, 100), v, hb, by norm_num, by norm_num, by decide, ?_⟩
  set g := (make 5 false (1, 3, 15)).update (1, 100) with hg
  have hb' : g.Built := ⟨hb.n, hb.tU, hb.tL, hb.wL⟩
  have e1 : g.p0 = 1 := by rw [hg]; simp [Grid.update, make]
  have e2 : g.p1 = 100 := by rw [hg]; simp [Grid.update, make]
  have e3 : g.wUpper = 15 := rfl
  have e4 : g.tUpper = 2 := by rw [hg]; simp [Grid.update, make]; norm_num
  have e5 : g.tLower = -2 := by rw [hg]; simp [Grid.update, make]; norm_num
  have a0 : g.a0 = 60 / (-6985) := by unfold Grid.a0 Grid.quad Grid.temp; rw [e1, e2, e3, e4]; norm_num
  have a1 : g.a1 = 3030 / (-6985) := by unfold Grid.a1 Grid.quad Grid.temp; rw [e1, e2, e3, e4]; norm_num
  have fc : g.fac = 10000 / 201 := by unfold Grid.fac Grid.temp; rw [e1, e2]; norm_num
  have rs : g.rescale = 6030 / (-6985) := by unfold Grid.rescale Grid.quad Grid.temp; rw [e1, e2, e3, e4]; norm_num
  rw [all_eq hb', all_eq hb', e5, freq_eq, freq_eq]
  have f1 : ((-2 : ℝ) + ((4 : Nat) : ℝ)) = 2 := by norm_num
  have f2 : ((-2 : ℝ) + ((3 : Nat) : ℝ)) = 1 := by norm_num
  rw [f1, f2, sgn_pos (by norm_num), sgn_pos (by norm_num)]
  unfold Grid.F
  rw [a0, a1, fc, rs]
  norm_num

/-- C107, what holds of an update: boundaries in order below the largest frequency are taken over as they are, and the
grid stays valid; a first boundary above is cut. -/
theorem c107_update_partial {g : Grid} (h : g.Valid) (b : ℝ × ℝ) (h0 : 0 < b.1) (h1 : b.2 ≤ g.wUpper) :
    (g.update b).Valid ∧ (b.1 ≤ b.2 → (g.update b).p0 = b.1 ∧ (g.update b).p1 = b.2) := by
  have w := wpos h
  refine ⟨⟨lt_min w h0, le_max_left _ _, max_le (min_le_left _ _) h1, h.t⟩, fun h2 => ?_⟩
  have e : min g.wUpper b.1 = b.1 := min_eq_right (h2.trans h1)
  exact ⟨e, by show max (min g.wUpper b.1) b.2 = b.2; rw [e, max_eq_right h2]⟩

/-- C107 is false of setting the parameters of a grid of non-negative frequencies: the lower edge becomes negative although
the grid still begins at zero. -/
theorem c107_set_refuted {g : Grid} (hp : g.positive = true) (wmax : ℝ) (hw : 0 < wmax) (b : ℝ × ℝ) :
    (g.set wmax b).wLower < 0 ∧ (g.set wmax b).all 0 = 0 := by
  refine ⟨by simpa [Grid.set] using hw, ?_⟩
  simp [Grid.all, Grid.set, hp]

/-- The constructor's grids meet the hypotheses of C106: five symmetric points, look-up of the second one. -/
example : (make 5 false (1, 3, 15)).index (1 / 10 ^ 5) ((make 5 false (1, 3, 15)).all 1) = .ok 1 := by
  obtain ⟨v, b⟩ := c107_made_partial 5 (by norm_num) false (1, 3, 15) ⟨by norm_num, by norm_num, by norm_num⟩
  exact c106_lookup_point v b _ (by norm_num) 1 (by decide)

end Verif.Hybrid
