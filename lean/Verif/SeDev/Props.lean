import Verif.SeDev.Spec
import Verif.Buffer.PropsRough
import Mathlib.Tactic.NormNum
import Mathlib.Tactic.Linarith
import Mathlib.Tactic.Positivity

namespace Verif.SeDev

open Buffer (maxNorm)

theorem maxNorm_lt {l : List ℂ} {b : ℝ} (hb : 0 < b) : maxNorm l < b ↔ ∀ z ∈ l, ‖z‖ < b := by
  obtain ⟨h1, h2, h3⟩ := Buffer.foldl_max_spec (fun z : ℂ => ‖z‖) l 0
  constructor
  · intro h z hz
    exact lt_of_le_of_lt (h2 z hz) h
  · intro h
    rcases h3 with h0 | ⟨z, hz, h0⟩
    · show List.foldl _ _ _ < b
      rw [h0]; exact hb
    · show List.foldl _ _ _ < b
      rw [h0]; exact h z hz

theorem maxNorm_le {l : List ℂ} {b : ℝ} (hb : 0 ≤ b) : maxNorm l ≤ b ↔ ∀ z ∈ l, ‖z‖ ≤ b := by
  obtain ⟨h1, h2, h3⟩ := Buffer.foldl_max_spec (fun z : ℂ => ‖z‖) l 0
  constructor
  · intro h z hz
    exact (h2 z hz).trans h
  · intro h
    rcases h3 with h0 | ⟨z, hz, h0⟩
    · show List.foldl _ _ _ ≤ b
      rw [h0]; exact hb
    · show List.foldl _ _ _ ≤ b
      rw [h0]; exact h z hz

theorem maxNorm_nonneg (l : List ℂ) : 0 ≤ maxNorm l := (Buffer.foldl_max_spec (fun z : ℂ => ‖z‖) l 0).1

theorem maxNorm_pos {l : List ℂ} (h : ∃ z ∈ l, z ≠ 0) : 0 < maxNorm l := by
  obtain ⟨z, hz, h0⟩ := h
  exact lt_of_lt_of_le (norm_pos_iff.mpr h0) ((maxNorm_le (maxNorm_nonneg l)).mp le_rfl z hz)

theorem maxNorm_attained {l : List ℂ} (h : l ≠ []) : ∃ b ∈ l, maxNorm l = ‖b‖ :=
  (Buffer.maxNorm_isGreatest h).1

theorem lt_mul_maxNorm {l : List ℂ} {tol x : ℝ} (ht : 0 < tol) (h : ∃ z ∈ l, z ≠ 0) :
    x < tol * maxNorm l ↔ ∃ b ∈ l, x < tol * ‖b‖ := by
  have hne : l ≠ [] := by rintro rfl; simp at h
  constructor
  · intro hx
    obtain ⟨b, hb, e⟩ := maxNorm_attained hne
    exact ⟨b, hb, e ▸ hx⟩
  · rintro ⟨b, hb, hx⟩
    exact hx.trans_le (mul_le_mul_of_nonneg_left ((maxNorm_le (maxNorm_nonneg l)).mp le_rfl b hb) ht.le)

theorem relDev_num (d base : SE) (hb : ∃ z ∈ base.data, z ≠ 0) (ha : base.asymp ≠ 0) :
    relDev d base = .num (max (maxNorm d.data / maxNorm base.data) (‖d.asymp‖ / ‖base.asymp‖)) := by
  have h1 := (maxNorm_pos hb).ne'
  have h2 : ‖base.asymp‖ ≠ 0 := norm_ne_zero_iff.mpr ha
  simp only [relDev, quot, h1, h2, ne_eq, not_false_eq_true, if_true, Fl.max, Fl.lt]
  split_ifs with h
  · rw [max_eq_right h.le]
  · rw [max_eq_left (not_lt.mp h)]

/-- Where neither the array nor the Hartree value of the reference vanishes, the relative deviation is below `tol`
exactly if every stored value and the Hartree value deviate by less than that fraction. -/
theorem c154_bound_partial (tol : ℝ) (ht : 0 < tol) (d base : SE) (hb : ∃ z ∈ base.data, z ≠ 0) (ha : base.asymp ≠ 0) :
    (relDev d base).lt (.num tol) ↔ Within tol d base := by
  have h1 := maxNorm_pos hb
  have h2 : 0 < ‖base.asymp‖ := norm_pos_iff.mpr ha
  rw [relDev_num d base hb ha]
  simp only [Fl.lt, max_lt_iff, div_lt_iff₀ h1, div_lt_iff₀ h2, Within]
  rw [maxNorm_lt (mul_pos ht h1)]
  exact and_congr (forall₂_congr fun z _ => lt_mul_maxNorm ht hb) Iff.rfl

/-- Without Hartree part (particle-hole symmetry in imaginary frequencies) the array alone counts. -/
theorem c154_hartree_partial (tol : ℝ) (ht : 0 < tol) (d base : SE) (hb : ∃ z ∈ base.data, z ≠ 0)
    (ha : base.asymp = 0) (hd : d.asymp = 0) :
    (relDev d base).lt (.num tol) ↔ ∀ z ∈ d.data, ∃ b ∈ base.data, ‖z‖ < tol * ‖b‖ := by
  have h1 := maxNorm_pos hb
  have e : relDev d base = .num (maxNorm d.data / maxNorm base.data) := by
    simp [relDev, quot, ha, hd, h1.ne', Fl.max, Fl.lt]
  rw [e]
  simp only [Fl.lt, div_lt_iff₀ h1]
  rw [maxNorm_lt (mul_pos ht h1)]
  exact forall₂_congr fun z _ => lt_mul_maxNorm ht hb

/-- A Hartree value that changes from zero is an infinite relative deviation. -/
theorem c154_onset (d base : SE) (hb : ∃ z ∈ base.data, z ≠ 0) (ha : base.asymp = 0) (hd : d.asymp ≠ 0) :
    relDev d base = .inf := by
  have h1 := maxNorm_pos hb
  simp [relDev, quot, ha, hd, h1.ne', Fl.max, Fl.lt]

/-- Identical self-energies: the deviation is zero, if the array of the reference does not vanish. -/
theorem c154_same_partial (base : SE) (hb : ∃ z ∈ base.data, z ≠ 0) : relDev (base.sub base) base = .num 0 := by
  have h0 : maxNorm (base.sub base).data = 0 := by
    apply le_antisymm _ (maxNorm_nonneg _)
    rw [maxNorm_le le_rfl]
    intro z hz
    have : ∀ l : List ℂ, ∀ z ∈ List.zipWith (· - ·) l l, z = 0 := by
      intro l
      induction l with
      | nil => simp
      | cons a l ih =>
        intro z hz
        simp only [List.zipWith_cons_cons, sub_self, List.mem_cons] at hz
        rcases hz with h | h
        · exact h
        · exact ih z h
    rw [this _ z hz, norm_zero]
  have h1 := (maxNorm_pos hb).ne'
  have ha : (base.sub base).asymp = 0 := sub_self _
  by_cases hz : base.asymp = 0
  · simp [relDev, quot, h0, h1, ha, hz, Fl.max, Fl.lt]
  · simp [relDev, quot, h0, h1, ha, hz, Fl.max, Fl.lt]

/-- If the arrays vanish, the relative deviation is NaN: neither below nor above any tolerance, whatever the change of
the Hartree value.  A loop that continues while the deviation exceeds the tolerance takes this for convergence. -/
theorem c154_nan_refuted (h h' : ℂ) (n : ℕ) (x : Fl) :
    relDev (SE.sub ⟨List.replicate n 0, h'⟩ ⟨List.replicate n 0, h⟩) ⟨List.replicate n 0, h⟩ = .nan ∧
    ¬ x.lt .nan ∧ ¬ Fl.nan.lt x := by
  have hz : ∀ n, maxNorm (List.replicate n (0 : ℂ)) = 0 := by
    intro n
    apply le_antisymm _ (maxNorm_nonneg _)
    rw [maxNorm_le le_rfl]
    intro z hz
    rw [List.eq_of_mem_replicate hz, norm_zero]
  refine ⟨?_, by cases x <;> simp [Fl.lt], by cases x <;> simp [Fl.lt]⟩
  have hd : (SE.sub ⟨List.replicate n 0, h'⟩ ⟨List.replicate n 0, h⟩).data = List.replicate n 0 := by
    simp [SE.sub]
  simp only [relDev, hd, hz, quot]
  simp [Fl.max, Fl.lt]

/-- A doubled Hartree value is not a deviation within one half. -/
example : ¬ Within (1/2) (SE.sub ⟨[0, 0], 2⟩ ⟨[0, 0], 1⟩) ⟨[0, 0], 1⟩ := by
  rintro ⟨-, h⟩
  norm_num [SE.sub] at h

example : Within (1/2) ⟨[Complex.I, 0], 1⟩ ⟨[3, 0], 3⟩ := by
  refine ⟨?_, by norm_num⟩
  intro z hz
  simp only [List.mem_cons, List.not_mem_nil, or_false] at hz
  rcases hz with rfl | rfl <;> exact ⟨3, by simp, by norm_num⟩

/-! ### Particle-hole symmetry -/

theorem devEntry_one (val : ℕ → ℝ → ℕ → ℂ) (h : ℝ) (v : ℝ) :
    devEntry val h 1 v = (val 0 v 0 - h) + star (val 0 (-v) 0 - h) := by
  simp only [devEntry, List.range_one, List.foldl_cons, List.foldl_nil, star_sub, Complex.star_def, Complex.conj_ofReal]
  ring

/-- For one internal index and a real Hartree value the printed number is at most `δ` exactly if the retarded
self-energy is particle-hole symmetric up to `δ` at the frequencies of the grid. -/
theorem c155_reported_partial (δ : ℝ) (hδ : 0 ≤ δ) (val : ℕ → ℝ → ℕ → ℂ) (h : ℝ) (grid : List ℝ) :
    phsDeviation val h 1 grid ≤ δ ↔ ParticleHole δ val h 1 grid := by
  simp only [phsDeviation, maxNorm_le hδ, List.mem_map, forall_exists_index, and_imp, forall_apply_eq_imp_iff₂,
    devEntry_one, ParticleHole]
  refine forall₂_congr fun v _ => ⟨fun H j hj => ?_, fun H => H 0 (by norm_num)⟩
  obtain rfl : j = 0 := by omega
  exact H

/-- With several internal indices only the last one counts. -/
theorem c155_internal_refuted (δ : ℝ) (n : ℕ) (grid : List ℝ) (hg : grid ≠ []) :
    ∃ val : ℕ → ℝ → ℕ → ℂ, phsDeviation val 0 (n + 2) grid = 0 ∧ ¬ ParticleHole δ val 0 (n + 2) grid := by
  refine ⟨fun _ _ j => if j = n + 1 then 0 else ((|δ| + 1 : ℝ) : ℂ), ?_, ?_⟩
  · apply le_antisymm _ (maxNorm_nonneg _)
    show maxNorm _ ≤ _
    rw [maxNorm_le le_rfl]
    intro z hz
    obtain ⟨v, -, rfl⟩ := List.mem_map.mp hz
    simp [devEntry, List.range_succ]
  · intro H
    obtain ⟨v, l, rfl⟩ := List.exists_cons_of_ne_nil hg
    have := H v (by simp) 0 (by omega)
    simp only [show (0 : ℕ) ≠ n + 1 by omega, if_false, Complex.ofReal_zero, sub_zero, Complex.star_def,
      Complex.conj_ofReal] at this
    rw [← Complex.ofReal_add, Complex.norm_real, Real.norm_eq_abs, abs_of_nonneg (by positivity)] at this
    have := le_abs_self δ
    have := abs_nonneg δ
    linarith

/-- The Keldysh component does not enter the printed number. -/
theorem c155_keldysh_refuted (δ : ℝ) (val : ℕ → ℝ → ℕ → ℂ) (h : ℝ) (nIn : ℕ) (hn : 0 < nIn) (grid : List ℝ)
    (hg : grid ≠ []) : ∃ val' : ℕ → ℝ → ℕ → ℂ, phsDeviation val' h nIn grid = phsDeviation val h nIn grid ∧
      ¬ ParticleHoleKeldysh δ val' nIn grid := by
  refine ⟨fun iK v j => if iK = 0 then val 0 v j else ((|δ| + 1 : ℝ) : ℂ) * Complex.I, ?_, ?_⟩
  · have : devEntry (fun iK v j => if iK = 0 then val 0 v j else ((|δ| + 1 : ℝ) : ℂ) * Complex.I) h nIn
        = devEntry val h nIn := by
      funext v; simp [devEntry]
    simp only [phsDeviation, this]
  · intro H
    obtain ⟨v, l, rfl⟩ := List.exists_cons_of_ne_nil hg
    have := H v (by simp) 0 hn
    simp only [one_ne_zero, if_false, Complex.star_def, map_mul, Complex.conj_ofReal, Complex.conj_I, mul_neg,
      sub_neg_eq_add] at this
    rw [← add_mul, norm_mul, Complex.norm_I, mul_one, ← Complex.ofReal_add, Complex.norm_real, Real.norm_eq_abs,
      abs_of_nonneg (by positivity)] at this
    have := le_abs_self δ
    have := abs_nonneg δ
    linarith

example : ParticleHole 0 (fun _ v _ => (2 : ℂ) + (v : ℂ) + Complex.I) 2 1 [-1, 0, 1] := by
  intro v _ j _
  simp only [Complex.ofReal_neg, Complex.star_def, map_sub, map_add, map_neg, Complex.conj_ofReal, Complex.conj_I,
    Complex.conj_ofNat, Complex.ofReal_ofNat]
  rw [show (2 : ℂ) + v + Complex.I - 2 + (2 + -v + -Complex.I - 2) = 0 by ring, norm_zero]

/-! ### The Schwinger-Dyson equation inside the flow -/

section Sde

variable {S : Type} [AddCommGroup S]

/-- If the new self-energy derivative is not negligible and differences of zero do not exceed the tolerance, the
equation is evaluated once, whatever it is: the test compares the new value with itself. -/
theorem c156_once (p : Sde S) (σ : S) (hz : ∀ b, p.exceeds 0 b = false) (ht : p.tiny (p.eval σ) = false) :
    p.run σ = (p.eval σ, 1) := by
  simp [Sde.run, Sde.go, Sde.pass, ht, hz]

/-- The number of evaluations is between one and four and the result is the corresponding iterate. -/
theorem c156_iterate_partial (p : Sde S) (σ : S) :
    1 ≤ (p.run σ).2 ∧ (p.run σ).2 ≤ 4 ∧ (p.run σ).1 = p.eval^[(p.run σ).2] σ := by
  have key : ∀ k σ, 1 ≤ (p.go k σ).2 ∧ (p.go k σ).2 ≤ k + 1 ∧ (p.go k σ).1 = p.eval^[(p.go k σ).2] σ := by
    intro k
    induction k with
    | zero => intro σ; simp [Sde.go, Sde.pass]
    | succ k ih =>
      intro σ
      simp only [Sde.go]
      split_ifs with h
      · obtain ⟨h1, h2, h3⟩ := ih (p.pass σ).1
        refine ⟨by simp, by simpa using h2, ?_⟩
        simp only [Function.iterate_succ_apply]
        exact h3
      · simp [Sde.pass]
  exact key 3 σ

end Sde

/-- The tests of the code for numbers in place of self-energies, right_hand_sides.hpp:471, 494-496. -/
def numSde (f : ℚ → ℚ) : Sde ℚ :=
  ⟨f, fun x => decide (|x| < 1 / 10 ^ 10), fun d b => decide (|d| / |b| > 1 / 10 ^ 3)⟩

/-- The loop does not iterate until successive values agree: for the equation `x = x / 2 + c` it ends after one
evaluation, for every `c` that is not negligible, although the value then changes by more than any fraction below
one. -/
theorem c156_convergence_refuted (c t : ℚ) (hc : 1 / 10 ^ 10 ≤ |c|) (ht : t < 1) :
    (numSde fun x => x / 2 + c).run 0 = (c, 1) ∧
    ¬ IteratesToConvergence (fun x => x / 2 + c) (fun a b => |b - a| ≤ t * |b|) 0 ((numSde fun x => x / 2 + c).run 0) := by
  have h : (numSde fun x => x / 2 + c).run 0 = (c, 1) := by
    rw [c156_once _ _ (by intro b; norm_num [numSde]) (by simpa [numSde] using hc)]
    simp [numSde]
  refine ⟨h, ?_⟩
  rw [h]
  rintro ⟨-, -, -, H⟩
  have := H (by norm_num)
  simp only [Nat.sub_self, Function.iterate_zero, id, sub_zero] at this
  have h0 : 0 < |c| := lt_of_lt_of_le (by norm_num) hc
  nlinarith

example : (numSde fun x => x / 2 + 1).run 0 = (1, 1) := (c156_convergence_refuted 1 0 (by norm_num) (by norm_num)).1

/-- A value below the threshold is iterated, up to four evaluations. -/
example : (numSde fun x => x / 2).run (1 / 10 ^ 11) = (1 / 10 ^ 11 / 16, 4) := by
  norm_num [Sde.run, Sde.go, Sde.pass, numSde, abs_of_pos]

end Verif.SeDev
