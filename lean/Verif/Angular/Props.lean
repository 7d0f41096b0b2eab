import Verif.Angular.Lemmas

/-
C108: the angular grid map. C109: points and look-up of the angular grid.
-/
namespace Verif.Angular
open Hybrid (trunc)

/-! ### C108 -/

/-- C108: the map from the auxiliary axis to angles is odd and strictly increasing on the whole axis, and takes the middle
and the ends of every interval of the auxiliary axis to the middle and the ends of the corresponding interval of angles. -/
theorem c108_increasing {g : Grid} (h : g.Valid) : StrictMono g.freq ∧ (∀ t, g.freq (-t) = -g.freq t) ∧
    ∀ k : ℤ, g.freq (k / 2 * ((g.tUpper - g.tLower) / g.m)) = k / 2 * ((g.wUpper - g.wLower) / g.m) := by
  have ht := htPos h; have hw := hwPos h
  have hm : (0 : ℝ) < g.m := by exact_mod_cast h.m
  refine ⟨fun s t hst => ?_, fun t => ?_, fun k => ?_⟩
  · rw [freq_stair h, freq_stair h]
    exact mul_lt_mul_of_pos_right (stair_mono (S_strict h) (S_one h) S_odd
      (div_lt_div_of_pos_right hst (by linarith))) (by linarith)
  · rw [freq_stair h, freq_stair h, neg_div, stair_odd (S_strict h) (S_one h) S_odd, neg_mul]
  · rw [freq_stair h]
    have e : (k : ℝ) / 2 * ((g.tUpper - g.tLower) / g.m) / (2 * g.ht) = k / 2 := by
      have : g.tUpper - g.tLower = 2 * g.ht * g.m := by unfold Grid.ht; field_simp
      rw [this]; field_simp
    rw [e, stair_half (S_strict h) (S_one h) S_odd]
    unfold Grid.hw; field_simp

/-- C108: the two maps are inverse to each other, for every auxiliary coordinate and every angle. -/
theorem c108_inverse {g : Grid} (h : g.Valid) : (∀ t, g.tOf (g.freq t) = t) ∧ ∀ w, g.freq (g.tOf w) = w := by
  have ht := htPos h; have hw := hwPos h
  constructor
  · intro t
    rw [freq_stair h, tOf_stair h, mul_div_assoc, div_self (by linarith), mul_one,
      stair_inv (S_strict h) (S_one h) S_odd (R_S h)]
    field_simp
  · intro w
    rw [freq_stair h, tOf_stair h, mul_div_assoc, div_self (by linarith), mul_one,
      stair_inv (R_strict h) (R_one h) R_odd (S_R h)]
    field_simp

/-- C108: inside an interval the points concentrate at its middle: up to the linear part, the distance of the angle from
the middle is the given power of the distance on the auxiliary axis. -/
theorem c108_shape {g : Grid} (h : g.Valid) (k : ℤ) (r : ℝ) (h0 : 0 ≤ r) (h1 : r < 1) :
    g.freq ((k + r / 2) * ((g.tUpper - g.tLower) / g.m)) =
      (k + ((r + g.lam) ^ g.power - g.lam ^ g.power) / ((1 + g.lam) ^ g.power - g.lam ^ g.power) / 2) *
        ((g.wUpper - g.wLower) / g.m) := by
  have ht := htPos h
  have hm : (0 : ℝ) < g.m := by exact_mod_cast h.m
  rw [freq_stair h]
  have e : ((k : ℝ) + r / 2) * ((g.tUpper - g.tLower) / g.m) / (2 * g.ht) = k + r / 2 := by
    have : g.tUpper - g.tLower = 2 * g.ht * g.m := by unfold Grid.ht; field_simp
    rw [this]; field_simp
  have f : ⌊(k : ℝ) + r / 2 + 1 / 2⌋ = k := by
    rw [Int.floor_eq_iff]; constructor <;> linarith
  rw [e]
  unfold stair
  rw [f]
  have : 2 * ((k : ℝ) + r / 2 - k) = r := by ring
  rw [this, S_nonneg h h0]
  unfold Grid.hw Grid.q
  field_simp

/-- Changing the power or the number of intervals keeps the parameters valid. -/
theorem c108_updates {g : Grid} (h : g.Valid) (p : ℝ) (m : Nat) (hm : 0 < m) :
    (g.updatePower p).Valid ∧ (g.updateIntervals m).Valid :=
  ⟨⟨h.m, h.lam, le_max_right _ _, h.w, h.t⟩, ⟨hm, h.lam, h.power, h.w, h.t⟩⟩

/-- Valid parameters exist: a symmetric grid with eight intervals. -/
example : (build 17 8 3 false).Valid :=
  ⟨by simp [build], by simp [build], by simp [build], by simp [build], by simp [build]⟩

/-! ### C109 -/

section
variable {g : Grid} (hb : g.Built)
include hb

theorem spacing_one : g.spacing = 1 := by
  have hn : (2 : ℝ) ≤ g.n := by exact_mod_cast hb.n
  have hne : (g.n : ℝ) - 1 ≠ 0 := by linarith
  unfold Grid.spacing
  rw [hb.tL, hb.tU, div_eq_one_iff_eq hne]
  cases g.positive <;> simp
  ring

theorem last_eq : g.tLower + ((g.n - 1 : Nat) : ℝ) = g.tUpper := by
  have hn := hb.n
  rw [hb.tL, hb.tU, Nat.cast_sub (by omega)]
  cases g.positive <;> simp; ring

theorem all_eq (i : Nat) : g.all i = g.freq (g.tLower + i) := by
  rw [Grid.all, spacing_one hb, one_mul]

theorem aux_eq (i : Nat) : g.aux i = g.tLower + i := by
  rw [Grid.aux, spacing_one hb, one_mul]

end

section
variable {g : Grid} (hv : g.Valid) (hb : g.Built)
include hv hb

theorem ends : g.freq g.tLower = g.wLower ∧ g.freq g.tUpper = g.wUpper := by
  have hm : (0 : ℝ) < g.m := by exact_mod_cast hv.m
  obtain ⟨_, odd, half⟩ := c108_increasing hv
  cases hp : g.positive
  · have tl : g.tLower = -g.tUpper := by rw [hb.tL, hp]; simp
    have wl : g.wLower = -g.wUpper := by rw [hb.wL, hp]; simp
    have u : g.freq g.tUpper = g.wUpper := by
      have := half g.m
      rw [tl, wl] at this
      have e1 : ((g.m : ℤ) : ℝ) / 2 * ((g.tUpper - -g.tUpper) / g.m) = g.tUpper := by push_cast; field_simp; ring
      have e2 : ((g.m : ℤ) : ℝ) / 2 * ((g.wUpper - -g.wUpper) / g.m) = g.wUpper := by push_cast; field_simp; ring
      rwa [e1, e2] at this
    exact ⟨by rw [tl, wl, odd, u], u⟩
  · have tl : g.tLower = 0 := by rw [hb.tL, hp]; simp
    have wl : g.wLower = 0 := by rw [hb.wL, hp]; simp
    constructor
    · have := half 0
      simpa [tl, wl] using this
    · have := half (2 * g.m)
      rw [tl, wl] at this
      have e1 : ((2 * (g.m : ℤ) : ℤ) : ℝ) / 2 * ((g.tUpper - 0) / g.m) = g.tUpper := by push_cast; field_simp; ring
      have e2 : ((2 * (g.m : ℤ) : ℤ) : ℝ) / 2 * ((g.wUpper - 0) / g.m) = g.wUpper := by push_cast; field_simp; ring
      rwa [e1, e2] at this

/-- C109, what holds: the points of a grid whose boxes are aligned increase from the lower to the upper edge. -/
theorem c109_points_partial : g.all 0 = g.wLower ∧ g.all (g.n - 1) = g.wUpper ∧
    (∀ i j, i < j → g.all i < g.all j) := by
  obtain ⟨l, u⟩ := ends hv hb
  obtain ⟨mono, _, _⟩ := c108_increasing hv
  refine ⟨?_, ?_, fun i j hij => ?_⟩
  · rw [all_eq hb]; simpa using l
  · rw [all_eq hb, last_eq hb, u]
  · rw [all_eq hb, all_eq hb]
    have : (i : ℝ) < j := by exact_mod_cast hij
    exact mono (by linarith)

/-- C109, what holds: a symmetric grid is symmetric. -/
theorem c109_symmetric_partial (hp : g.positive = false) (i : Nat) (hi : i < g.n) : g.all (g.n - 1 - i) = -g.all i := by
  obtain ⟨_, odd, _⟩ := c108_increasing hv
  rw [all_eq hb, all_eq hb, ← odd]
  congr 1
  have := last_eq hb
  have tl : g.tLower = -g.tUpper := by rw [hb.tL, hp]; simp
  rw [Nat.cast_sub (by omega)]
  linarith

/-- C109, what holds: for every angle in the box the look-up passes its assertions and returns a cell of the grid that
holds the angle; below the left end of the cell it may lie only by what the safety margin of the look-up allows. -/
theorem c109_lookup_partial (eps tol : ℝ) (he : 0 < eps) (ht : 1 / 10 ^ 12 ≤ tol) (w : ℝ) (h1 : g.wLower ≤ w) (h2 : w ≤ g.wUpper) :
    ∃ i : Nat, g.index eps tol w = .ok (i : Int) ∧ i + 1 < g.n ∧ w ≤ g.all (i + 1) ∧
      g.tLower + i ≤ g.tOf w + 1 / 10 ^ 12 ∧ (g.tLower + i ≤ g.tOf w → g.all i ≤ w) := by
  obtain ⟨mono, odd, _⟩ := c108_increasing hv
  obtain ⟨i1, i2⟩ := c108_inverse hv
  obtain ⟨l, u⟩ := ends hv hb
  have hn := hb.n
  have lo : g.tLower ≤ g.tOf w := by
    by_contra c
    have := mono (not_le.mp c)
    rw [i2, l] at this
    linarith
  have hi : g.tOf w ≤ g.tUpper := by
    by_contra c
    have := mono (not_le.mp c)
    rw [i2, u] at this
    linarith
  set t := g.tOf w with htdef
  have hw : g.freq t = w := i2 w
  have x1 : (0 : ℝ) < 1 / 10 ^ 12 := by norm_num
  set x : ℝ := (t - g.tLower) + 1 / 10 ^ 12 with hx
  have x0 : 0 ≤ x := by linarith
  have tr' : trunc x = ⌊x⌋ := by simp [trunc, x0]
  have fl0 : 0 ≤ ⌊x⌋ := Int.floor_nonneg.mpr x0
  obtain ⟨k, hk⟩ : ∃ k : Nat, ⌊x⌋ = (k : Int) := ⟨⌊x⌋.toNat, by omega⟩
  have fk1 : (k : ℝ) ≤ x := by have := Int.floor_le x; rw [hk] at this; exact_mod_cast this
  have fk2 : x < (k : ℝ) + 1 := by have := Int.lt_floor_add_one x; rw [hk] at this; exact_mod_cast this
  set i : Nat := min (g.n - 2) k with hidef
  have rawi : min ((g.n : Int) - 2) (max 0 (trunc x)) = (i : Int) := by
    rw [tr', hk, max_eq_right (by omega), hidef]; omega
  have ik : (i : ℝ) ≤ k := by exact_mod_cast (min_le_right _ _)
  have lowi : g.tLower + i ≤ t + 1 / 10 ^ 12 := by linarith
  have upi : t ≤ g.tLower + ((i + 1 : Nat) : ℝ) := by
    by_cases c : k ≤ g.n - 2
    · have : i = k := min_eq_right c
      rw [this]; push_cast
      linarith
    · have : i + 1 = g.n - 1 := by rw [hidef, min_eq_left (by omega)]; omega
      rw [this, last_eq hb]; exact hi
  have hin : i + 1 < g.n := by have : i ≤ g.n - 2 := min_le_left _ _; omega
  refine ⟨i, ?_, hin, ?_, lowi, fun c => ?_⟩
  · unfold Grid.index
    simp only [← htdef, ← hx, rawi, spacing_one hb, aux_eq hb]
    have e1 : ((i : Int)).toNat = i := by simp
    have e2 : ((i : Int) + 1).toNat = i + 1 := by omega
    rw [e1, e2, if_neg (by simpa using he), if_neg (by omega), if_neg (by push Not; linarith),
      if_neg (by push Not; left; linarith)]
  · rw [all_eq hb, ← hw]
    exact mono.monotone upi
  · rw [all_eq hb, ← hw]
    exact mono.monotone c

/-- C109, what holds outside of the range of angles: above it the last cell is used, without any check; below it by more than the tolerance
the look-up fails its assertion. -/
theorem c109_outside_partial (eps tol : ℝ) (he : 0 < eps) (ht : 1 / 10 ^ 12 ≤ tol) (w : ℝ) :
    (g.wUpper < w → g.index eps tol w = .ok ((g.n : Int) - 2)) ∧
      (g.tOf w + tol < g.tLower → g.index eps tol w = .error .assertion) := by
  obtain ⟨mono, odd, _⟩ := c108_increasing hv
  obtain ⟨i1, i2⟩ := c108_inverse hv
  obtain ⟨l, u⟩ := ends hv hb
  have hn := hb.n
  have lst := last_eq hb
  have hx : (0 : ℝ) < 1 / 10 ^ 12 := by norm_num
  constructor
  · intro h
    have hi : g.tUpper < g.tOf w := by
      by_contra c
      rcases eq_or_lt_of_le (not_lt.mp c) with e | e
      · have := i2 w
        rw [e, u] at this
        linarith
      · have := mono e
        rw [i2 w, u] at this
        linarith
    have raw : min ((g.n : Int) - 2) (max 0 (Hybrid.trunc (g.tOf w - g.tLower + 1 / 10 ^ 12))) = (g.n : Int) - 2 := by
      have lo : ((g.n : Int) - 1 : Int) ≤ ⌊g.tOf w - g.tLower + 1 / 10 ^ 12⌋ := by
        rw [Int.le_floor]
        rw [Nat.cast_sub (by omega)] at lst
        push_cast at lst ⊢
        linarith
      have p : 0 ≤ g.tOf w - g.tLower + 1 / 10 ^ 12 := by
        have : (0 : ℝ) ≤ ((g.n - 1 : Nat) : ℝ) := Nat.cast_nonneg _
        linarith
      rw [Hybrid.trunc, if_pos p]
      omega
    unfold Grid.index
    simp only [raw, spacing_one hb, aux_eq hb]
    have e1 : ((g.n : Int) - 2).toNat = g.n - 2 := by omega
    have le : (((g.n - 2 : Nat)) : ℝ) ≤ ((g.n - 1 : Nat) : ℝ) := by exact_mod_cast (by omega)
    rw [e1, if_neg (by simpa using he), if_neg (by omega), if_neg (by push Not; linarith), if_neg (by push Not; right; trivial)]
  · intro h
    have raw : min ((g.n : Int) - 2) (max 0 (Hybrid.trunc (g.tOf w - g.tLower + 1 / 10 ^ 12))) = 0 := by
      have p : g.tOf w - g.tLower + 1 / 10 ^ 12 < 0 := by linarith
      have c : ⌈g.tOf w - g.tLower + 1 / 10 ^ 12⌉ ≤ 0 := Int.ceil_le.mpr (by push_cast; linarith)
      rw [Hybrid.trunc, if_neg (not_le.mpr p)]
      omega
    unfold Grid.index
    simp only [raw, spacing_one hb, aux_eq hb]
    rw [if_neg (by simpa using he), if_neg (by omega), if_pos (by push Not; simpa using h)]

/-- C109, what holds: an angle of the grid is found in the cell that begins with it. -/
theorem c109_lookup_point_partial (eps tol : ℝ) (he : 0 < eps) (ht : 1 / 10 ^ 12 ≤ tol) (j : Nat) (hj : j + 1 < g.n) :
    g.index eps tol (g.all j) = .ok (j : Int) := by
  obtain ⟨i1, i2⟩ := c108_inverse hv
  have e : g.tOf (g.all j) = g.tLower + j := by rw [all_eq hb, i1]
  have hx : (0 : ℝ) < 1 / 10 ^ 12 := by norm_num
  have j0 : (0 : ℝ) ≤ j := Nat.cast_nonneg j
  have raw : min ((g.n : Int) - 2) (max 0 (trunc (g.tLower + j - g.tLower + 1 / 10 ^ 12))) = (j : Int) := by
    have f : ⌊(g.tLower + (j : ℝ) - g.tLower) + 1 / 10 ^ 12⌋ = (j : Int) := by
      rw [Int.floor_eq_iff]
      constructor
      · push_cast; linarith
      · have : (1 : ℝ) / 10 ^ 12 < 1 := by norm_num
        push_cast; linarith
    rw [trunc, if_pos (by linarith), f]
    omega
  unfold Grid.index
  simp only [e, raw, spacing_one hb, aux_eq hb]
  have e1 : ((j : Int)).toNat = j := by simp
  have e2 : ((j : Int) + 1).toNat = j + 1 := by omega
  rw [e1, e2, if_neg (by simpa using he), if_neg (by omega), if_neg (by push Not; linarith),
    if_neg (by push Not; left; push_cast; linarith)]

end

theorem build_ok (n m : Nat) (hn : 2 ≤ n) (hm : 0 < m) (w : ℝ) (hw : 0 < w) (pos : Bool) :
    (build n m w pos).Valid ∧ (build n m w pos).Built := by
  have hn' : (2 : ℝ) ≤ n := by exact_mod_cast hn
  refine ⟨⟨hm, by simp [build], by simp [build], ?_, ?_⟩, ⟨hn, rfl, rfl, rfl⟩⟩
  · cases pos
    · simp [build]; linarith
    · simpa [build] using hw
  · cases pos
    · simp [build]; linarith
    · simp [build]; linarith

/-- C109, what holds: every grid that is constructed is aligned and covers its range of angles. -/
theorem c109_made_partial (k : Hybrid.Kind) (s : Sizes) (pos : Bool) (g : Grid) (h : make k s pos = .ok g) (hn : 2 ≤ g.n) :
    g.Valid ∧ g.Built ∧ (g.wUpper = Real.pi ∨ k.cls = 1 ∧ g.wUpper = 2 * Real.pi) ∧ (k.cls ≠ 1 → k.bosonic = false → g.m ∣ g.n - 1) := by
  have pi := Real.pi_pos
  unfold make at h
  split at h
  · rename_i c
    cases h
    obtain ⟨v, b⟩ := build_ok _ 1 hn (by norm_num) (2 * Real.pi) (by linarith) pos
    exact ⟨v, b, Or.inr ⟨c, rfl⟩, fun c' => absurd c c'⟩
  · cases h
  · split_ifs at h with d
    cases h
    obtain ⟨v, b⟩ := build_ok _ 8 hn (by norm_num) Real.pi pi pos
    exact ⟨v, b, Or.inl rfl, fun _ _ => Nat.dvd_of_mod_eq_zero d⟩
  · rename_i _ c
    cases h
    obtain ⟨v, b⟩ := build_ok _ 8 hn (by norm_num) Real.pi pi pos
    exact ⟨v, b, Or.inl rfl, fun _ c' => by rw [c] at c'; cases c'⟩
  · simp only at h
    split_ifs at h with p d d
    all_goals cases h
    · obtain ⟨v, b⟩ := build_ok _ 4 hn (by norm_num) Real.pi pi pos
      exact ⟨v, b, Or.inl rfl, fun _ _ => Nat.dvd_of_mod_eq_zero d⟩
    · obtain ⟨v, b⟩ := build_ok _ 8 hn (by norm_num) Real.pi pi pos
      exact ⟨v, b, Or.inl rfl, fun _ _ => Nat.dvd_of_mod_eq_zero d⟩
  · cases h

/-- C109 is false of a symmetric grid whose largest angle is set: the lower edge becomes zero, the boxes are no longer
aligned, and the points reach only half of the largest angle, on both sides. -/
theorem c109_set_refuted {g : Grid} (hv : g.Valid) (hb : g.Built) (hp : g.positive = false) (w : ℝ) (hw : 0 < w) :
    (g.setUpper w).wLower = 0 ∧ (g.setUpper w).wUpper = w ∧
    (g.setUpper w).all (g.n - 1) = w / 2 ∧ (g.setUpper w).all 0 = -(w / 2) := by
  refine ⟨rfl, rfl, ?_⟩
  have v : (g.setUpper w).Valid := ⟨hv.m, hv.lam, hv.power, hw, hv.t⟩
  have hm : (0 : ℝ) < g.m := by exact_mod_cast hv.m
  obtain ⟨_, odd, half⟩ := c108_increasing v
  have tl : g.tLower = -g.tUpper := by rw [hb.tL, hp]; simp
  have sp : (g.setUpper w).spacing = 1  := by
    have := spacing_one hb
    unfold Grid.spacing at this
    exact this
  have u : (g.setUpper w).freq g.tUpper = w / 2 := by
    have := half g.m
    have e1 : ((g.m : ℤ) : ℝ) / 2 * (((g.setUpper w).tUpper - (g.setUpper w).tLower) / (g.setUpper w).m) = g.tUpper := by
      show ((g.m : ℤ) : ℝ) / 2 * ((g.tUpper - g.tLower) / g.m) = g.tUpper
      rw [tl]; push_cast; field_simp; ring
    have e2 : ((g.m : ℤ) : ℝ) / 2 * (((g.setUpper w).wUpper - (g.setUpper w).wLower) / (g.setUpper w).m) = w / 2 := by
      show ((g.m : ℤ) : ℝ) / 2 * ((w - 0) / g.m) = w / 2
      push_cast; field_simp; ring
    rwa [e1, e2] at this
  constructor
  · have : (g.setUpper w).all (g.n - 1) = (g.setUpper w).freq (g.tLower + ((g.n - 1 : Nat) : ℝ)) := by
      rw [Grid.all, sp, one_mul]; rfl
    rw [this, last_eq hb, u]
  · have : (g.setUpper w).all 0 = (g.setUpper w).freq (-g.tUpper) := by
      rw [Grid.all, sp, ← tl]
      show (g.setUpper w).freq (g.tLower + 1 * ((0 : Nat) : ℝ)) = _
      simp
    rw [this, odd, u]

/-- C109 is false of the bosonic grid of the second class: it cannot be constructed. -/
theorem c109_second_class_refuted (s : Sizes) (pos : Bool) : make ⟨2, true⟩ s pos = .error .assertion := rfl

/-- The hypotheses are met by the symmetric grid with 17 points: look-up of its third point. -/
example : (build 17 8 3 false).index (1 / 10 ^ 15) (1 / 10 ^ 5) ((build 17 8 3 false).all 2) = .ok 2 := by
  obtain ⟨v, b⟩ := build_ok 17 8 (by norm_num) (by norm_num) 3 (by norm_num) false
  exact c109_lookup_point_partial v b _ _ (by norm_num) (by norm_num) 2 (by decide)

end Verif.Angular
