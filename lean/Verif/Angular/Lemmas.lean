import Verif.Angular.Spec
import Verif.Hybrid.Lemmas

namespace Verif.Angular
open GridMap (sgn)
open Hybrid (sgn_pos sgn_neg sgn_zero)

/-- The shape of one interval on `[-1, 1]`. -/
noncomputable def Grid.S (g : Grid) (r : ℝ) : ℝ := sgn r * ((|r| + g.lam) ^ g.power - g.lam ^ g.power) / g.q
noncomputable def Grid.R (g : Grid) (r : ℝ) : ℝ := sgn r * ((|r| * g.q + g.lam ^ g.power) ^ (1 / g.power) - g.lam)

/-- The map in units of the intervals. -/
noncomputable def stair (S : ℝ → ℝ) (x : ℝ) : ℝ := ⌊x + 1 / 2⌋ + (1 / 2) * S (2 * (x - ⌊x + 1 / 2⌋))

section
variable {g : Grid} (h : g.Valid)
include h

theorem powPos : 0 < g.power := lt_of_lt_of_le one_pos h.power

theorem pow_lt {a b : ℝ} (ha : 0 ≤ a) (hab : a < b) : (a + g.lam) ^ g.power < (b + g.lam) ^ g.power :=
  Real.rpow_lt_rpow (add_nonneg ha h.lam) (by linarith) (powPos h)

theorem qPos : 0 < g.q := by
  have := pow_lt h le_rfl one_pos
  rw [zero_add] at this
  exact sub_pos.mpr this

theorem htPos : 0 < g.ht := by
  have := h.t; have hm : (0 : ℝ) < g.m := by exact_mod_cast h.m
  exact div_pos (mul_pos (by linarith) (by norm_num)) hm
theorem hwPos : 0 < g.hw := by
  have := h.w; have hm : (0 : ℝ) < g.m := by exact_mod_cast h.m
  exact div_pos (mul_pos (by linarith) (by norm_num)) hm

theorem freq_stair (t : ℝ) : g.freq t = stair g.S (t / (2 * g.ht)) * (2 * g.hw) := by
  have hm : (0 : ℝ) < g.m := by exact_mod_cast h.m
  have ht := htPos h
  have e : (t + g.ht) * g.m / (g.tUpper - g.tLower) = t / (2 * g.ht) + 1 / 2 := by
    have : g.tUpper - g.tLower = 2 * g.ht * g.m := by unfold Grid.ht; field_simp
    rw [this]; field_simp
  have e2 : ∀ i : ℝ, t / g.ht - i * 2 = 2 * (t / (2 * g.ht) - i) := fun i => by field_simp
  unfold Grid.freq stair Grid.S
  simp only [e, e2]
  ring

theorem tOf_stair (w : ℝ) : g.tOf w = stair g.R (w / (2 * g.hw)) * (2 * g.ht) := by
  have hm : (0 : ℝ) < g.m := by exact_mod_cast h.m
  have ht := hwPos h
  have e : (w + g.hw) * g.lwRecip = w / (2 * g.hw) + 1 / 2 := by
    have : g.wUpper - g.wLower = 2 * g.hw * g.m := by unfold Grid.hw; field_simp
    unfold Grid.lwRecip
    rw [this]; field_simp
  have e2 : ∀ i : ℝ, w / g.hw - i * 2 = 2 * (w / (2 * g.hw) - i) := fun i => by field_simp
  unfold Grid.tOf stair Grid.R
  simp only [e, e2]
  ring

theorem S_nonneg {r : ℝ} (hr : 0 ≤ r) : g.S r = ((r + g.lam) ^ g.power - g.lam ^ g.power) / g.q := by
  rcases eq_or_lt_of_le hr with e | e
  · rw [← e]; simp [Grid.S, sgn_zero]
  · rw [Grid.S, sgn_pos e, abs_of_pos e, one_mul]

theorem R_nonneg {r : ℝ} (hr : 0 ≤ r) : g.R r = (r * g.q + g.lam ^ g.power) ^ (1 / g.power) - g.lam := by
  rcases eq_or_lt_of_le hr with e | e
  · rw [← e]
    have : (g.lam ^ g.power) ^ (1 / g.power) = g.lam := by
      rw [← Real.rpow_mul h.lam, mul_one_div_cancel (powPos h).ne', Real.rpow_one]
    simp only [Grid.R, sgn_zero, abs_zero, zero_mul, zero_add, this, sub_self]
  · rw [Grid.R, sgn_pos e, abs_of_pos e, one_mul]

omit h in
theorem S_odd (r : ℝ) : g.S (-r) = -g.S r := by
  unfold Grid.S
  rcases lt_trichotomy r 0 with a | a | a
  · rw [sgn_neg a, sgn_pos (by linarith), abs_neg]; ring
  · subst a; simp [sgn_zero]
  · rw [sgn_pos a, sgn_neg (by linarith), abs_neg]; ring
omit h in
theorem R_odd (r : ℝ) : g.R (-r) = -g.R r := by
  unfold Grid.R
  rcases lt_trichotomy r 0 with a | a | a
  · rw [sgn_neg a, sgn_pos (by linarith), abs_neg]; ring
  · subst a; simp [sgn_zero]
  · rw [sgn_pos a, sgn_neg (by linarith), abs_neg]; ring

theorem S_one : g.S 1 = 1 := by
  rw [S_nonneg h zero_le_one]
  exact div_self (qPos h).ne'

theorem S_mono {a b : ℝ} (hab : a < b) : g.S a < g.S b := by
  have pos : ∀ {a b : ℝ}, 0 ≤ a → a < b → g.S a < g.S b := fun {a b} ha hab => by
    rw [S_nonneg h ha, S_nonneg h (ha.trans hab.le)]
    exact div_lt_div_of_pos_right (by linarith [pow_lt h ha hab]) (qPos h)
  have z : g.S 0 = 0 := by simp [Grid.S, sgn_zero]
  by_cases ha : 0 ≤ a
  · exact pos ha hab
  · have ha := not_le.mp ha
    by_cases hb : 0 ≤ b
    · have h1 := pos le_rfl (neg_pos.mpr ha)
      rw [S_odd, z] at h1
      rcases eq_or_lt_of_le hb with e | e
      · rw [← e, z]; linarith
      · have := pos le_rfl e; rw [z] at this; linarith
    · have := pos (by linarith : (0 : ℝ) ≤ -b) (neg_lt_neg hab)
      rw [S_odd, S_odd] at this; linarith

theorem R_S (r : ℝ) : g.R (g.S r) = r := by
  have pos : ∀ {r : ℝ}, 0 ≤ r → g.R (g.S r) = r := fun {r} hr => by
    have hq := qPos h
    have s0 : 0 ≤ g.S r := by
      rcases eq_or_lt_of_le hr with e | e
      · rw [← e]; simp [Grid.S, sgn_zero]
      · have := S_mono h e; have z : g.S 0 = 0 := by simp [Grid.S, sgn_zero]
        linarith
    rw [R_nonneg h s0, S_nonneg h hr, div_mul_cancel₀ _ hq.ne', sub_add_cancel,
      ← Real.rpow_mul (add_nonneg hr h.lam), mul_one_div_cancel (powPos h).ne', Real.rpow_one]
    ring
  rcases le_total 0 r with a | a
  · exact pos a
  · have := pos (neg_nonneg.mpr a)
    rw [S_odd, R_odd] at this; linarith

theorem S_R (r : ℝ) : g.S (g.R r) = r := by
  have pos : ∀ {r : ℝ}, 0 ≤ r → g.S (g.R r) = r := fun {r} hr => by
    have hq := qPos h
    have b0 : 0 ≤ g.lam ^ g.power := Real.rpow_nonneg h.lam _
    have r0 : 0 ≤ r * g.q := mul_nonneg hr hq.le
    have t0 : 0 ≤ g.R r := by
      rw [R_nonneg h hr]
      have e : (g.lam ^ g.power) ^ (1 / g.power) = g.lam := by
        rw [← Real.rpow_mul h.lam, mul_one_div_cancel (powPos h).ne', Real.rpow_one]
      have := Real.rpow_le_rpow b0 (by linarith : g.lam ^ g.power ≤ r * g.q + g.lam ^ g.power)
        (one_div_nonneg.mpr (powPos h).le)
      linarith
    rw [S_nonneg h t0, R_nonneg h hr, sub_add_cancel, ← Real.rpow_mul (by linarith),
      one_div_mul_cancel (powPos h).ne', Real.rpow_one]
    field_simp
    ring
  rcases le_total 0 r with a | a
  · exact pos a
  · have := pos (neg_nonneg.mpr a)
    rw [R_odd, S_odd] at this; linarith

end

/-! ### Staircases -/

section
variable {S : ℝ → ℝ} (hm : StrictMono S) (h1 : S 1 = 1) (ho : ∀ r, S (-r) = -S r)
include hm h1 ho

theorem stair_bounds (x : ℝ) :
    (⌊x + 1 / 2⌋ : ℝ) - 1 / 2 ≤ stair S x ∧ stair S x < (⌊x + 1 / 2⌋ : ℝ) + 1 / 2 := by
  have a := Int.floor_le (x + 1 / 2)
  have b := Int.lt_floor_add_one (x + 1 / 2)
  unfold stair
  have l : S (-1) ≤ S (2 * (x - ⌊x + 1 / 2⌋)) := hm.monotone (by linarith)
  have u : S (2 * (x - ⌊x + 1 / 2⌋)) < S 1 := hm (by linarith)
  rw [ho, h1] at l
  rw [h1] at u
  constructor <;> linarith

theorem stair_mono : StrictMono (stair S) := by
  intro x y hxy
  have hf : ⌊x + 1 / 2⌋ ≤ ⌊y + 1 / 2⌋ := Int.floor_le_floor (by linarith)
  rcases eq_or_lt_of_le hf with e | e
  · unfold stair
    rw [e]
    have := hm (show 2 * (x - (⌊y + 1 / 2⌋ : ℝ)) < 2 * (y - ⌊y + 1 / 2⌋) by linarith)
    linarith
  · have a := (stair_bounds hm h1 ho x).2
    have b := (stair_bounds hm h1 ho y).1
    have : (⌊x + 1 / 2⌋ : ℝ) + 1 ≤ ⌊y + 1 / 2⌋ := by exact_mod_cast e
    linarith

theorem stair_inv {T : ℝ → ℝ} (hT : ∀ r, T (S r) = r) (x : ℝ) : stair T (stair S x) = x := by
  obtain ⟨a, b⟩ := stair_bounds hm h1 ho x
  have f : ⌊stair S x + 1 / 2⌋ = ⌊x + 1 / 2⌋ := by
    rw [Int.floor_eq_iff]; constructor <;> linarith
  have e : 2 * (stair S x - ⌊x + 1 / 2⌋) = S (2 * (x - ⌊x + 1 / 2⌋)) := by unfold stair; ring
  have u : stair T (stair S x) = ⌊stair S x + 1 / 2⌋ + (1 / 2) * T (2 * (stair S x - ⌊stair S x + 1 / 2⌋)) := rfl
  rw [u, f, e, hT]
  ring

/-- Values at the middle and at the ends of intervals. -/
theorem stair_half (k : ℤ) : stair S (k / 2) = k / 2 := by
  have z : S 0 = 0 := by have := ho 0; rw [neg_zero] at this; linarith
  rcases Int.even_or_odd k with ⟨j, rfl⟩ | ⟨j, rfl⟩
  · have : (⌊((j + j : ℤ) : ℝ) / 2 + 1 / 2⌋) = j := by
      rw [Int.floor_eq_iff]; push_cast; constructor <;> linarith
    unfold stair
    rw [this]
    push_cast
    have : 2 * (((j : ℝ) + j) / 2 - j) = 0 := by ring
    rw [this, z]; ring
  · have : (⌊((2 * j + 1 : ℤ) : ℝ) / 2 + 1 / 2⌋) = j + 1 := by
      rw [Int.floor_eq_iff]; push_cast; constructor <;> linarith
    unfold stair
    rw [this]
    push_cast
    have : 2 * ((2 * (j : ℝ) + 1) / 2 - (j + 1)) = -1 := by ring
    rw [this, ho, h1]; ring

/-- Away from the ends of intervals the staircase is odd; at the ends both sides agree. -/
theorem stair_odd (x : ℝ) : stair S (-x) = -stair S x := by
  by_cases c : ∃ k : ℤ, x = k / 2
  · obtain ⟨k, rfl⟩ := c
    have := stair_half hm h1 ho (-k)
    push_cast at this
    rw [stair_half hm h1 ho k, ← neg_div, this]
  · have a := Int.floor_le (x + 1 / 2)
    have b := Int.lt_floor_add_one (x + 1 / 2)
    have f : ⌊-x + 1 / 2⌋ = -⌊x + 1 / 2⌋ := by
      rw [Int.floor_eq_iff]
      push_cast
      refine ⟨by linarith, ?_⟩
      rcases eq_or_lt_of_le a with e | e
      · exact absurd ⟨2 * ⌊x + 1 / 2⌋ - 1, by push_cast; linarith⟩ c
      · linarith
    unfold stair
    rw [f]
    push_cast
    have : 2 * (-x - -(⌊x + 1 / 2⌋ : ℝ)) = -(2 * (x - ⌊x + 1 / 2⌋)) := by ring
    rw [this, ho]; ring

end

section
variable {g : Grid} (h : g.Valid)
include h

theorem S_strict : StrictMono g.S := fun _ _ => S_mono h
theorem R_one : g.R 1 = 1 := by have := R_S h 1; rwa [S_one h] at this
theorem R_strict : StrictMono g.R := by
  intro a b hab
  by_contra c
  have := (S_strict h).monotone (not_lt.mp c)
  rw [S_R h, S_R h] at this
  linarith

end

end Verif.Angular
