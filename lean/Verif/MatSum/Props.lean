import Verif.MatSum.Model
import Verif.SpinSum.Props
import Verif.Freqs.Props
import Mathlib.Data.Int.Interval
import Mathlib.Algebra.BigOperators.Intervals
import Mathlib.Algebra.BigOperators.Group.Finset.Sigma
import Mathlib.Data.Nat.ModEq
import Mathlib.Tactic.Ring
import Mathlib.Tactic.Linarith

/-! C96: frequency sums at finite temperature. -/
namespace Verif.MatSum

open Keldysh SpinSum

variable {A : Type} [Ring A]

theorem foldl_add_eq (f : Nat → A) (n : Nat) :
    (List.range n).foldl (fun acc i => acc + f i) 0 = ∑ i ∈ Finset.range n, f i := by
  induction n with
  | zero => simp
  | succ n ih => rw [List.range_succ, List.foldl_append, ih, Finset.sum_range_succ]; rfl

theorem sum_Icc_eq (g : Int → A) (a b : Int) :
    ∑ n ∈ Finset.Icc a b, g n = ∑ i ∈ Finset.range (b - a + 1).toNat, g (a + i) := by
  refine Finset.sum_bij' (fun n _ => (n - a).toNat) (fun i _ => a + (i : Int)) ?_ ?_ ?_ ?_ ?_
  · intro n hn; rw [Finset.mem_Icc] at hn; rw [Finset.mem_range]; omega
  · intro i hi; rw [Finset.mem_range] at hi; rw [Finset.mem_Icc]; omega
  · intro n hn; rw [Finset.mem_Icc] at hn; omega
  · intro i hi; omega
  · intro n hn; rw [Finset.mem_Icc] at hn; congr 1; omega

/-- C96: the sum contains the integrand once at every odd integer between the limits, and a negative number
of terms is refused. -/
theorem c96_sum (f : Int → A) (nmin nmax : Int) :
    (nmin ≤ nmax + 1 → matsubaraSum f nmin nmax = .ok (∑ n ∈ Finset.Icc nmin nmax, f (2 * n + 1))) ∧
    (nmax + 1 < nmin → matsubaraSum f nmin nmax = .error .exception) := by
  constructor
  · intro h
    simp only [matsubaraSum]
    rw [if_neg (by omega), foldl_add_eq (fun i => f ((nmin + (i : Int)) * 2 + 1)), sum_Icc_eq]
    congr 1
    exact Finset.sum_congr rfl fun i _ => by rw [mul_comm 2]
  · intro h
    simp only [matsubaraSum]
    rw [if_pos (by omega)]

theorem corr_eq (W : Int) : Freqs.signFlipInt ((2 * W : Int) : ℚ) = .ok (-(|W| % 2)) := by
  have e : Freqs.truncQ |((2 * W : Int) : ℚ) / 2| = |W| := by
    have : |((2 * W : Int) : ℚ) / 2| = ((|W| : Int) : ℚ) := by
      push_cast; rw [mul_div_cancel_left₀ _ (by norm_num : (2 : ℚ) ≠ 0)]
    rw [this]
    exact Freqs.truncQ_int _ (abs_nonneg _)
  have hnn : 0 ≤ |W| := abs_nonneg W
  have t : (-|W|).tmod 2 = -(|W| % 2) := by
    rw [Int.neg_tmod, Int.tmod_eq_emod_of_nonneg hnn]
  simp only [Freqs.signFlipInt]
  rw [e, t]
  rw [if_pos]
  omega

theorem limits_eq (pos : Nat) (W : Int) :
    limits pos (2 * W) = .ok (-(pos : Int) - |W| / 2 - |W| % 2, (pos : Int) - 1 + |W| / 2) := by
  have hw : (2 * W).tdiv 2 = W := Int.mul_tdiv_cancel_left _ (by norm_num)
  have ha : |W.tdiv 2| = |W| / 2 := by
    rcases le_total 0 W with h | h
    · rw [Int.tdiv_eq_ediv_of_nonneg h, abs_of_nonneg h, abs_of_nonneg (by omega)]
    · have : W.tdiv 2 = -((-W) / 2) := by
        conv_lhs => rw [← neg_neg W, Int.neg_tdiv, Int.tdiv_eq_ediv_of_nonneg (by omega)]
      rw [this, abs_neg, abs_of_nonpos h, abs_of_nonneg (by omega)]
  simp only [limits, corr_eq, bind, Except.bind, pure, Except.pure, hw, ha]
  congr 1

/-- The two propagator frequencies for a bosonic frequency `2 * W`. -/
theorem pair_eq (ch : Ch) (W vpp : Int) :
    pair ch (2 * W) vpp = .ok (if ch = .p then (-((-W) / 2) * 2 + vpp, W / 2 * 2 - vpp)
      else (vpp - W / 2 * 2, vpp + -((-W) / 2) * 2)) := by
  have hw : (2 * W).tdiv 2 = W := Int.mul_tdiv_cancel_left _ (by norm_num)
  simp only [pair, hw, Freqs.floor2b_eq, Freqs.ceil2b_eq, bind, Except.bind, pure, Except.pure]
  cases ch <;> simp

/-- Signed frequency with which a propagator pair is compared: in the p channel the second line runs in the
opposite direction. -/
def along (ch : Ch) (q : Int × Int) : Int × Int := if ch = .p then (q.1, -q.2) else q

/-- C96: for every bosonic frequency and channel, the summed indices are exactly those for which the two
propagator frequencies are not both above `(2*pos - 1)·πT` or both below its negative (in the p channel, with
the second one reversed). Their difference is the bosonic frequency. -/
theorem c96_range (pos : Nat) (w : Int) (hw : w % 2 = 0) (ch : Ch) :
    ∃ nmin nmax, limits pos w = .ok (nmin, nmax) ∧ ∀ n : Int, ∃ q, pair ch w (2 * n + 1) = .ok q ∧
      ((along ch q).1 % 2 = 1 ∧ (along ch q).2 % 2 = 1) ∧
      (if ch = .p then q.1 + q.2 = w else q.2 - q.1 = w) ∧
      (nmin ≤ n ∧ n ≤ nmax ↔
        ¬ ((along ch q).1 > 2 * pos - 1 ∧ (along ch q).2 > 2 * pos - 1) ∧
        ¬ ((along ch q).1 < -(2 * pos - 1) ∧ (along ch q).2 < -(2 * pos - 1))) := by
  obtain ⟨W, rfl⟩ : ∃ W, w = 2 * W := ⟨w / 2, by omega⟩
  refine ⟨_, _, limits_eq pos W, fun n => ⟨_, pair_eq ch W _, ?_⟩⟩
  rcases le_total 0 W with h | h
  · rw [abs_of_nonneg h]
    cases ch <;> simp [along] <;> omega
  · rw [abs_of_nonpos h]
    cases ch <;> simp [along] <;> omega

/-- C96: the set of frequency pairs in the sum does not change when all frequencies change sign and the two
lines are exchanged (a, t), or when the two lines are exchanged (p): the reflected index is in the sum and
gives the reflected pair. -/
theorem c96_symmetric (pos : Nat) (w : Int) (hw : w % 2 = 0) (ch : Ch) :
    ∃ nmin nmax, limits pos w = .ok (nmin, nmax) ∧ ∀ n : Int, nmin ≤ n → n ≤ nmax →
      ∃ m, nmin ≤ m ∧ m ≤ nmax ∧ ∃ q, pair ch w (2 * n + 1) = .ok q ∧
        pair ch w (2 * m + 1) = .ok (if ch = .p then (q.2, q.1) else (-q.2, -q.1)) := by
  obtain ⟨W, rfl⟩ : ∃ W, w = 2 * W := ⟨w / 2, by omega⟩
  refine ⟨_, _, limits_eq pos W, fun n h1 h2 => ⟨-1 - |W| % 2 - n, by omega, by omega, _, pair_eq ch W _, ?_⟩⟩
  rw [pair_eq]
  rcases le_total 0 W with h | h
  · rw [abs_of_nonneg h]
    cases ch <;> simp <;> omega
  · rw [abs_of_nonpos h]
    cases ch <;> simp <;> omega

/-- C96: the frequencies of the self-energy loop are the `2*pos` odd integers of absolute value below
`2*pos`. -/
theorem c96_loop (pos : Nat) (f : Int → A) :
    matsubaraSum f (loopLimits pos).1 (loopLimits pos).2 = .ok (∑ n ∈ Finset.Icc (-(pos : Int)) (pos - 1), f (2 * n + 1)) ∧
    (∀ n : Int, n ∈ Finset.Icc (-(pos : Int)) (pos - 1) ↔ |2 * n + 1| < 2 * pos) := by
  constructor
  · have := (c96_sum f (-(pos : Int)) (-(-(pos : Int)) - 1)).1 (by omega)
    simp only [neg_neg] at this
    simpa [loopLimits] using this
  · intro n
    rw [Finset.mem_Icc, abs_lt]
    omega

theorem sum_range_mul (g : Nat → Nat → A) (N ns : Nat) (hns : 0 < ns) :
    ∑ c ∈ Finset.range (N * ns), g (c / ns) (c % ns) = ∑ i ∈ Finset.range N, ∑ s ∈ Finset.range ns, g i s := by
  induction N with
  | zero => simp
  | succ N ih =>
    rw [Nat.succ_mul, Finset.sum_range_add, ih, Finset.sum_range_succ]
    congr 1
    refine Finset.sum_congr rfl fun s hs => ?_
    rw [Finset.mem_range] at hs
    have h1 : (N * ns + s) / ns = N := by
      rw [mul_comm, Nat.mul_add_div hns, Nat.div_eq_of_lt hs, add_zero]
    have h2 : (N * ns + s) % ns = s := by
      rw [mul_comm, Nat.mul_add_mod, Nat.mod_eq_of_lt hs]
    rw [h1, h2]

theorem dot_eq_sum : ∀ (n : Nat) (l p r : List A), l.length = n → p.length = n → r.length = n →
    ∑ s ∈ Finset.range n, l.getD s 0 * p.getD s 0 * r.getD s 0 = dot l p r
  | 0, l, p, r, hl, hp, hr => by
    rw [List.length_eq_zero_iff] at hl hp hr
    subst hl hp hr
    simp [dot]
  | n + 1, l, p, r, hl, hp, hr => by
    obtain ⟨a, l', rfl⟩ := List.exists_cons_of_length_eq_add_one hl
    obtain ⟨b, p', rfl⟩ := List.exists_cons_of_length_eq_add_one hp
    obtain ⟨c, r', rfl⟩ := List.exists_cons_of_length_eq_add_one hr
    rw [Finset.sum_range_succ']
    simp only [List.getD_cons_succ, List.getD_cons_zero]
    rw [dot_eq_sum n l' p' r' (by simpa using hl) (by simpa using hp) (by simpa using hr)]
    simp [dot, add_comm]

/-- C96: every entry of the matrix product of the vectorised sum is the scalar sum of the scalar integrand at
the same outer frequencies, for all vertices, propagator pairs, classes, channels and spin components. -/
theorem c96_vectorised (sbe : Bool) (k : Class) (ch : Ch) (spin : Nat) (L R : Int → Int → Side A) (P : Int → A)
    (nmin nmax v vp : Int) (h : nmin ≤ nmax + 1) :
    matsubaraSum (fun vpp => scalar sbe k ch spin (L v vpp) (R vpp vp) (P vpp)) nmin nmax =
      .ok (vectorisedEntry (nSpinSum ch spin) (fun v vpp => leftVec sbe k ch spin (L v vpp))
        (fun vpp => piVec ch spin (P vpp)) (fun vpp vp => rightVec sbe k ch spin (R vpp vp)) nmin nmax v vp) := by
  rw [(c96_sum _ nmin nmax).1 h, sum_Icc_eq]
  congr 1
  unfold vectorisedEntry
  have hns : 0 < nSpinSum ch spin := by unfold nSpinSum; split_ifs <;> norm_num
  rw [sum_range_mul (fun i s => (leftVec sbe k ch spin (L v ((nmin + (i : Nat)) * 2 + 1))).getD s 0 *
      (piVec ch spin (P ((nmin + (i : Nat)) * 2 + 1))).getD s 0 *
      (rightVec sbe k ch spin (R ((nmin + (i : Nat)) * 2 + 1) vp)).getD s 0) _ _ hns]
  refine Finset.sum_congr rfl fun i _ => ?_
  have hp : ∀ x : A, (piVec ch spin x).length = nSpinSum ch spin := by
    intro x; unfold piVec nSpinSum; split_ifs <;> rfl
  obtain ⟨e, h1, h2⟩ := c97_vectorised sbe k ch spin (L v ((nmin + (i : Nat)) * 2 + 1))
    (R ((nmin + (i : Nat)) * 2 + 1) vp) (P ((nmin + (i : Nat)) * 2 + 1))
  rw [dot_eq_sum _ _ _ _ (h1.trans (hp _)) (hp _) (h2.trans (hp _)), e, mul_comm 2]

/-- C96: with even numbers of fermionic frequencies and all frequency components computed, the results for the
outer frequencies fill every entry of the output buffer exactly once. -/
theorem c96_output (k : Class) (m2 m3 : Nat) :
    let o := outer k true (2 * m2) (2 * m3)
    let size : Nat := match k with
      | .k1 => 1
      | .k2 => 2 * m2
      | .k2b => 2 * m2
      | .k3 => 2 * m3 * (2 * m3)
    (∀ i j, o.1 ≤ i → i ≤ o.2.1 → o.2.2.1 ≤ j → j ≤ o.2.2.2.1 → 0 ≤ slot o i j ∧ slot o i j < size) ∧
    (∀ s : Int, 0 ≤ s → s < size → ∃! ij : Int × Int,
      (o.1 ≤ ij.1 ∧ ij.1 ≤ o.2.1 ∧ o.2.2.1 ≤ ij.2 ∧ ij.2 ≤ o.2.2.2.1) ∧ slot o ij.1 ij.2 = s) := by
  have e2 : ∀ m : Nat, (-((2 * m : Nat) : Int)).tdiv 2 = -(m : Int) := by
    intro m; rw [Int.neg_tdiv]; push_cast; rw [Int.mul_tdiv_cancel_left _ (by norm_num)]
  have e3 : ∀ m : Nat, (((2 * m : Nat) : Int)).tdiv 2 = (m : Int) := by
    intro m; push_cast; rw [Int.mul_tdiv_cancel_left _ (by norm_num)]
  cases k with
  | k1 =>
    simp only [outer, slot]
    refine ⟨by intro i j; omega, fun s h1 h2 => ⟨(0, 0), by simp; omega, ?_⟩⟩
    rintro ⟨i, j⟩ h
    simp only [Prod.mk.injEq] at h ⊢
    omega
  | k2 =>
    simp only [outer, slot, e2, e3, if_true]
    refine ⟨by intro i j; push_cast; omega, fun s h1 h2 => ⟨(s - m2, 0), by push_cast at h2; simp; omega, ?_⟩⟩
    rintro ⟨i, j⟩ h
    simp only [Prod.mk.injEq] at h ⊢
    omega
  | k2b =>
    simp only [outer, slot, e2, e3, if_true]
    refine ⟨?_, fun s h1 h2 => ⟨(0, s - m2), by push_cast at h2; simp; omega, ?_⟩⟩
    · intro i j h1 h2 h3 h4
      have : i = 0 := by omega
      subst this
      push_cast
      constructor <;> simp <;> omega
    · rintro ⟨i, j⟩ h
      have : i = 0 := by have := h.1; simp only at this; omega
      subst this
      obtain ⟨-, h⟩ := h
      simp only [neg_zero, add_zero, zero_mul, zero_add] at h
      simp only [Prod.mk.injEq, true_and]
      omega
  | k3 =>
    simp only [outer, slot, e2, e3, if_true]
    constructor
    · intro i j h1 h2 h3 h4
      push_cast
      obtain ⟨a, rfl⟩ : ∃ a : Int, i = a - m3 := ⟨i + m3, by ring⟩
      obtain ⟨b, rfl⟩ : ∃ b : Int, j = b - m3 := ⟨j + m3, by ring⟩
      constructor <;> nlinarith
    · intro s h1 h2
      push_cast at h2
      have hpos : 0 < (2 * m3 : Int) := by nlinarith
      have hq : s / (2 * m3) < 2 * m3 := Int.ediv_lt_of_lt_mul hpos h2
      have hq0 : 0 ≤ s / (2 * m3) := Int.ediv_nonneg h1 hpos.le
      have hr := Int.emod_lt_of_pos s hpos
      have hr0 := Int.emod_nonneg s hpos.ne'
      have hs := Int.mul_ediv_add_emod s (2 * m3)
      refine ⟨(s / (2 * m3) - m3, s % (2 * m3) - m3), ⟨⟨by omega, by omega, by omega, by omega⟩, ?_⟩, ?_⟩
      · push_cast
        linarith [hs]
      · rintro ⟨i, j⟩ ⟨⟨a1, a2, a3, a4⟩, h⟩
        dsimp only at a1 a2 a3 a4 h
        push_cast at h
        have h' : s = (2 * m3) * (i + m3) + (j + m3) := by linarith
        have d : s / (2 * m3) = i + m3 := by
          rw [h', Int.mul_add_ediv_left _ _ hpos.ne', Int.ediv_eq_zero_of_lt (by omega) (by omega), add_zero]
        have m : s % (2 * m3) = j + m3 := by
          rw [h', Int.mul_add_emod_self_left, Int.emod_eq_of_lt (by omega) (by omega)]
        rw [d, m]
        simp

/-- C96 fails when the tails are added by quadrature (`ANALYTIC_TAILS` 0): the scalar and the vectorised code
weigh the same tail integral differently. -/
theorem c96_tail_refuted : ¬ ∀ (tail : ℤ), tailFactor true * tail = tailFactor false * tail := by
  intro h
  have := h 1
  simp [tailFactor] at this

/-- Odd half frequency: the range is extended by one at the lower end only. -/
example : limits 64 6 = .ok (-66, 64) ∧ limits 64 4 = .ok (-65, 64) ∧ limits 64 (-6) = .ok (-66, 64) ∧
    pair .a 6 1 = .ok (-1, 5) ∧ pair .p 6 1 = .ok (5, 1) := by
  refine ⟨?_, ?_, ?_, ?_, ?_⟩
  · simpa using limits_eq 64 3
  · simpa using limits_eq 64 2
  · simpa using limits_eq 64 (-3)
  · simpa using pair_eq .a 3 1
  · simpa using pair_eq .p 3 1

/-- C96 (reduced range): when only a part of the frequency components is computed, exactly the entries with a negative
first (for the mirrored class: second) fermionic frequency are filled, at the same positions. -/
theorem c96_reduced (k : Class) (m2 m3 : Nat) (i j : Int) :
    let o := outer k false (2 * m2) (2 * m3)
    let full := outer k true (2 * m2) (2 * m3)
    (o.1 ≤ i ∧ i ≤ o.2.1 ∧ o.2.2.1 ≤ j ∧ j ≤ o.2.2.2.1 ↔
      (full.1 ≤ i ∧ i ≤ full.2.1 ∧ full.2.2.1 ≤ j ∧ j ≤ full.2.2.2.1) ∧
        (match k with | .k1 => True | .k2 => 2 * i + 1 < 0 | .k2b => 2 * j + 1 < 0 | .k3 => 2 * i + 1 < 0)) ∧
    slot o i j = slot full i j := by
  have e2 : ∀ m : Nat, (-((2 * m : Nat) : Int)).tdiv 2 = -(m : Int) := by
    intro m; rw [Int.neg_tdiv]; push_cast; rw [Int.mul_tdiv_cancel_left _ (by norm_num)]
  have e3 : ∀ m : Nat, (((2 * m : Nat) : Int)).tdiv 2 = (m : Int) := by
    intro m; push_cast; rw [Int.mul_tdiv_cancel_left _ (by norm_num)]
  cases k <;> simp only [outer, slot, e2, e3, if_true, Bool.false_eq_true, if_false] <;> refine ⟨?_, trivial⟩ <;>
    first | (constructor <;> intro h <;> omega) | simp

/-- C96 fails for the tails: the scalar code weighs them twice as much as the vectorised code. -/
theorem c96_tail_factor_refuted : tailFactor false = 2 * tailFactor true ∧ tailFactor true ≠ 0 := by decide

end Verif.MatSum
