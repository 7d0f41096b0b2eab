import Verif.State.Spec
import Mathlib.Analysis.Complex.Basic
import Mathlib.Algebra.Order.BigOperators.Group.List
import Mathlib.Algebra.BigOperators.Group.List.Basic
import Mathlib.Tactic.Ring
import Mathlib.Tactic.Positivity
import Mathlib.Tactic.NormNum
import Mathlib.Tactic.Linarith
import Mathlib.Algebra.BigOperators.Ring.List

namespace Verif.State

theorem maxNorm_le (l : List ℂ) (r : ℝ) : maxNorm l ≤ r ↔ 0 ≤ r ∧ ∀ z ∈ l, ‖z‖ ≤ r := by
  have gen : ∀ (l : List ℂ) (m : ℝ), l.foldl (fun m z => max m ‖z‖) m ≤ r ↔ m ≤ r ∧ ∀ z ∈ l, ‖z‖ ≤ r := by
    intro l
    induction l with
    | nil => simp
    | cons a l ih => intro m; simp only [List.foldl_cons, ih, max_le_iff, List.mem_cons, forall_eq_or_imp]; tauto
  exact gen l 0

theorem maxNorm_nonneg (l : List ℂ) : 0 ≤ maxNorm l := ((maxNorm_le l _).mp le_rfl).1

theorem norm_le_maxNorm {l : List ℂ} {z : ℂ} (h : z ∈ l) : ‖z‖ ≤ maxNorm l :=
  ((maxNorm_le l _).mp le_rfl).2 z h

theorem takeLarger_eq (m c : ℝ) : takeLarger m c = max m c := by
  unfold takeLarger
  split_ifs with h
  · exact (max_eq_right h.le).symm
  · exact (max_eq_left (not_lt.mp h)).symm

theorem classNorm_zero (a p t : List ℂ) :
    classNorm 0 a p t = .ok (max (max (maxNorm a) (maxNorm p)) (maxNorm t)) := by
  simp [classNorm, takeLarger_eq]

/-- C48 (maximum norm, `p = 0`, which is the one used for error estimates). The norm of a class is zero
exactly if all its entries in all channels vanish, it is the largest modulus, and it is absolutely
homogeneous. -/
theorem c48_max_partial (a p t : List ℂ) :
    ∃ N, classNorm 0 a p t = .ok N ∧ 0 ≤ N ∧ (N = 0 ↔ ∀ z ∈ a ++ p ++ t, z = 0) ∧
      (∀ r, N ≤ r ↔ 0 ≤ r ∧ ∀ z ∈ a ++ p ++ t, ‖z‖ ≤ r) ∧
      (∀ c : ℂ, classNorm 0 (a.map (c * ·)) (p.map (c * ·)) (t.map (c * ·)) = .ok (‖c‖ * N)) := by
  have hchar : ∀ (a p t : List ℂ) (r : ℝ), max (max (maxNorm a) (maxNorm p)) (maxNorm t) ≤ r
      ↔ 0 ≤ r ∧ ∀ z ∈ a ++ p ++ t, ‖z‖ ≤ r := by
    intro a p t r
    simp only [max_le_iff, maxNorm_le, List.mem_append]
    constructor
    · rintro ⟨⟨⟨h, h1⟩, -, h2⟩, -, h3⟩
      exact ⟨h, fun z hz => hz.elim (fun hz => hz.elim (h1 z) (h2 z)) (h3 z)⟩
    · rintro ⟨h, h1⟩
      exact ⟨⟨⟨h, fun z hz => h1 z (.inl (.inl hz))⟩, h, fun z hz => h1 z (.inl (.inr hz))⟩, h,
        fun z hz => h1 z (.inr hz)⟩
  have hN0 : 0 ≤ max (max (maxNorm a) (maxNorm p)) (maxNorm t) :=
    le_max_of_le_right (maxNorm_nonneg t)
  refine ⟨_, classNorm_zero a p t, hN0, ?_, hchar a p t, fun c => ?_⟩
  · constructor
    · intro h z hz
      have := ((hchar a p t 0).mp h.le).2 z hz
      exact norm_le_zero_iff.mp this
    · intro h
      exact le_antisymm ((hchar a p t 0).mpr ⟨le_rfl, fun z hz => by simp [h z hz]⟩) hN0
  · rw [classNorm_zero]
    congr 1
    set N := max (max (maxNorm a) (maxNorm p)) (maxNorm t)
    apply le_antisymm
    · rw [hchar]
      refine ⟨by positivity, fun z hz => ?_⟩
      rw [← List.map_append, ← List.map_append, List.mem_map] at hz
      obtain ⟨w, hw, rfl⟩ := hz
      rw [norm_mul]
      exact mul_le_mul_of_nonneg_left (((hchar a p t N).mp le_rfl).2 w hw) (norm_nonneg c)
    · set M := max (max (maxNorm (a.map (c * ·))) (maxNorm (p.map (c * ·)))) (maxNorm (t.map (c * ·))) with hM
      have hM' := (hchar (a.map (c * ·)) (p.map (c * ·)) (t.map (c * ·)) M).mp le_rfl
      by_cases hc : c = 0
      · simp [hc, hM'.1]
      · have hcp : 0 < ‖c‖ := norm_pos_iff.mpr hc
        rw [← le_div_iff₀' hcp]
        rw [hchar]
        refine ⟨div_nonneg hM'.1 hcp.le, fun z hz => ?_⟩
        rw [le_div_iff₀' hcp, ← norm_mul]
        apply hM'.2
        rw [← List.map_append, ← List.map_append, List.mem_map]
        exact ⟨z, hz, rfl⟩

/-- C48 (maximum norm). Triangle inequality. -/
theorem c48_max_triangle_partial (a p t a' p' t' : List ℂ) :
    ∃ N N' M, classNorm 0 a p t = .ok N ∧ classNorm 0 a' p' t' = .ok N' ∧
      classNorm 0 (List.zipWith (· + ·) a a') (List.zipWith (· + ·) p p') (List.zipWith (· + ·) t t') = .ok M ∧
      M ≤ N + N' := by
  obtain ⟨N, h1, h2, -, h3, -⟩ := c48_max_partial a p t
  obtain ⟨N', h1', h2', -, h3', -⟩ := c48_max_partial a' p' t'
  obtain ⟨M, g1, g2, -, g3, -⟩ := c48_max_partial (List.zipWith (· + ·) a a') (List.zipWith (· + ·) p p')
    (List.zipWith (· + ·) t t')
  refine ⟨N, N', M, h1, h1', g1, (g3 _).mpr ⟨add_nonneg h2 h2', fun z hz => ?_⟩⟩
  have key : ∀ (l l' : List ℂ), (∀ z ∈ l, ‖z‖ ≤ N) → (∀ z ∈ l', ‖z‖ ≤ N') →
      ∀ z ∈ List.zipWith (· + ·) l l', ‖z‖ ≤ N + N' := by
    intro l
    induction l with
    | nil => simp
    | cons x l ih =>
      intro l' hl hl' z hz
      cases l' with
      | nil => simp at hz
      | cons y l' =>
        simp only [List.zipWith_cons_cons, List.mem_cons] at hz
        rcases hz with rfl | hz
        · exact (norm_add_le _ _).trans (add_le_add (hl x (by simp)) (hl' y (by simp)))
        · exact ih l' (fun z h => hl z (by simp [h])) (fun z h => hl' z (by simp [h])) z hz
  have hN := ((h3 N).mp le_rfl).2
  have hN' := ((h3' N').mp le_rfl).2
  simp only [List.mem_append] at hz hN hN'
  rcases hz with (hz | hz) | hz
  · exact key a a' (fun z h => hN z (.inl (.inl h))) (fun z h => hN' z (.inl (.inl h))) z hz
  · exact key p p' (fun z h => hN z (.inl (.inr h))) (fun z h => hN' z (.inl (.inr h))) z hz
  · exact key t t' (fun z h => hN z (.inr h)) (fun z h => hN' z (.inr h)) z hz

theorem sum_zip3 (a p t : List ℂ) (h1 : a.length = p.length) (h2 : p.length = t.length) :
    (List.zipWith (· + ·) (List.zipWith (· + ·) a p) t).sum = a.sum + p.sum + t.sum := by
  have h : ∀ (l l' : List ℂ), l.length = l'.length → (List.zipWith (· + ·) l l').sum = l.sum + l'.sum := by
    intro l
    induction l with
    | nil => intro l' h; cases l' <;> simp_all
    | cons x l ih =>
      intro l' h
      cases l' with
      | nil => simp at h
      | cons y l' =>
        simp only [List.zipWith_cons_cons, List.sum_cons, ih l' (by simpa using h)]
        ring
  rw [h _ _ (by simp [h1, h2]), h _ _ h1]

theorem classNorm_pos {p : Nat} (hp : p ≠ 0) (a b t : List ℂ) (h1 : a.length = b.length)
    (h2 : b.length = t.length) :
    classNorm p a b t = .ok (‖((a ++ b ++ t).map (· ^ p)).sum‖ ^ (1 / (p : ℝ))) := by
  simp only [classNorm, hp, if_false, h1, h2, and_self, if_true]
  rw [sum_zip3 _ _ _ (by simp [h1, h2]) (by simp [h2])]
  simp [add_assoc]

/-- C48 (`p ≥ 1`, homogeneity only). -/
theorem c48_homogeneous_partial {p : Nat} (hp : p ≠ 0) (a b t : List ℂ) (h1 : a.length = b.length)
    (h2 : b.length = t.length) (c : ℂ) :
    ∃ N, classNorm p a b t = .ok N ∧
      classNorm p (a.map (c * ·)) (b.map (c * ·)) (t.map (c * ·)) = .ok (‖c‖ * N) := by
  refine ⟨_, classNorm_pos hp a b t h1 h2, ?_⟩
  rw [classNorm_pos hp _ _ _ (by simpa using h1) (by simpa using h2)]
  congr 1
  have : ((a.map (c * ·) ++ b.map (c * ·) ++ t.map (c * ·)).map (· ^ p)).sum
      = c ^ p * ((a ++ b ++ t).map (· ^ p)).sum := by
    rw [← List.map_append, ← List.map_append, List.map_map, ← List.sum_map_mul_left]
    congr 2
    funext x
    simp [mul_pow]
  rw [this, norm_mul, norm_pow, Real.mul_rpow (by positivity) (by positivity)]
  congr 1
  rw [one_div, Real.pow_rpow_inv_natCast (norm_nonneg c) hp]

/-- C48 (real data and even `p` only). The norm vanishes only if all entries do. -/
theorem c48_even_real_partial {p : Nat} (hp : p ≠ 0) (he : Even p) (a b t : List ℝ) (h1 : a.length = b.length)
    (h2 : b.length = t.length) :
    ∃ N, classNorm p (a.map (↑)) (b.map (↑)) (t.map (↑)) = .ok N ∧
      (N = 0 ↔ ∀ x ∈ a ++ b ++ t, x = 0) := by
  refine ⟨_, classNorm_pos hp _ _ _ (by simpa using h1) (by simpa using h2), ?_⟩
  have hsum : ((a.map (fun x : ℝ => (x : ℂ)) ++ b.map (fun x : ℝ => (x : ℂ))
      ++ t.map (fun x : ℝ => (x : ℂ))).map (· ^ p)).sum = (((a ++ b ++ t).map (· ^ p)).sum : ℝ) := by
    rw [← List.map_append, ← List.map_append]
    generalize a ++ b ++ t = l
    induction l with
    | nil => simp
    | cons x l ih => simp_all
  rw [hsum, Complex.norm_real, Real.norm_eq_abs]
  have hnn : ∀ l : List ℝ, 0 ≤ (l.map (· ^ p)).sum := fun l =>
    List.sum_nonneg (by intro x hx; rw [List.mem_map] at hx; obtain ⟨y, -, rfl⟩ := hx; exact he.pow_nonneg y)
  rw [abs_of_nonneg (hnn _), Real.rpow_eq_zero (hnn _) (by positivity)]
  generalize a ++ b ++ t = l
  induction l with
  | nil => simp
  | cons x l ih =>
    simp only [List.map_cons, List.sum_cons, List.mem_cons, forall_eq_or_imp]
    exact (add_eq_zero_iff_of_nonneg (he.pow_nonneg x) (hnn l)).trans (and_congr (pow_eq_zero_iff hp) ih)

/-- C48. Of the self-energy: zero only if the function and its asymptotic value vanish, and absolutely
homogeneous, for every `p`. -/
theorem c48_selfenergy (p : Nat) (s : List ℂ) (z : ℂ) :
    (seNorm p s z = 0 ↔ (∀ x ∈ s, x = 0) ∧ z = 0) ∧
      ∀ c : ℂ, seNorm p (s.map (c * ·)) (c * z) = ‖c‖ * seNorm p s z := by
  by_cases hp : p = 0
  · subst hp
    have key : seNorm 0 s z = max (max (maxNorm s) (maxNorm [z])) (maxNorm []) := by
      have : maxNorm [z] = ‖z‖ := by simp [maxNorm]
      rw [this]
      simp only [seNorm, if_true, maxNorm, List.foldl_nil]
      exact (max_eq_left (le_max_of_le_right (norm_nonneg z))).symm
    have keyc : ∀ c : ℂ, seNorm 0 (s.map (c * ·)) (c * z)
        = max (max (maxNorm (s.map (c * ·))) (maxNorm ([z].map (c * ·)))) (maxNorm ([].map (c * ·))) := by
      intro c
      have : maxNorm ([z].map (c * ·)) = ‖c * z‖ := by simp [maxNorm, mul_nonneg]
      rw [this]
      simp only [seNorm, if_true, maxNorm, List.map_nil, List.foldl_nil]
      exact (max_eq_left (le_max_of_le_right (norm_nonneg _))).symm
    obtain ⟨N, h1, h2, h3, -, h5⟩ := c48_max_partial s [z] []
    rw [classNorm_zero] at h1
    have hN : seNorm 0 s z = N := by rw [key]; exact Except.ok.inj h1
    refine ⟨by rw [hN, h3]; simp [or_imp, forall_and], fun c => ?_⟩
    have := h5 c
    rw [classNorm_zero] at this
    rw [keyc, Except.ok.inj this, hN]
  · have hnn : ∀ s : List ℂ, 0 ≤ (s.map (fun z => ‖z‖ ^ p)).sum := fun s =>
      List.sum_nonneg (by intro x hx; rw [List.mem_map] at hx; obtain ⟨y, -, rfl⟩ := hx; positivity)
    simp only [seNorm, hp, if_false]
    constructor
    · rw [Real.rpow_eq_zero (add_nonneg (hnn s) (by positivity)) (by positivity),
        add_eq_zero_iff_of_nonneg (hnn s) (by positivity), pow_eq_zero_iff hp, norm_eq_zero]
      refine and_congr ?_ Iff.rfl
      induction s with
      | nil => simp
      | cons x l ih =>
        simp only [List.map_cons, List.sum_cons, List.mem_cons, forall_eq_or_imp]
        rw [add_eq_zero_iff_of_nonneg (by positivity) (hnn l), ih, pow_eq_zero_iff hp, norm_eq_zero]
    · intro c
      have : ((s.map (c * ·)).map (fun z => ‖z‖ ^ p)).sum + ‖c * z‖ ^ p
          = ‖c‖ ^ p * ((s.map (fun z => ‖z‖ ^ p)).sum + ‖z‖ ^ p) := by
        rw [mul_add, List.map_map, ← List.sum_map_mul_left, norm_mul, mul_pow]
        congr 3
        funext x
        simp [mul_pow]
      rw [this, Real.mul_rpow (by positivity) (add_nonneg (hnn s) (by positivity))]
      congr 1
      rw [one_div, Real.pow_rpow_inv_natCast (norm_nonneg c) hp]

/-- C48 fails for `p ≥ 1`: powers are added without taking the modulus, so different entries cancel. -/
theorem c48_cancellation_refuted :
    classNorm 2 [1] [Complex.I] [0] = .ok 0 ∧ classNorm 1 [1] [-1] [0] = .ok 0 := by
  constructor
  · rw [classNorm_pos (p := 2) (by norm_num) [1] [Complex.I] [0] rfl rfl]
    simp
  · rw [classNorm_pos (p := 1) (by norm_num) [1] [-1] [0] rfl rfl]
    simp

/-- C48 fails for the sum over classes: neither the bare interaction nor the class `K2'` enters, so a vertex
with any values there has norm zero if its other classes vanish. -/
theorem c48_ignored_refuted (cf : Conf) (irred : List ℂ) (g : List ℚ) (d : List ℂ) :
    let z : Buf ℂ := ⟨g, g, true, [0]⟩
    let r : RV ℂ := ⟨z, z, ⟨g, g, true, d⟩, z⟩
    sumNorm cf 0 ⟨irred, r, r, r⟩ = .ok 0 := by
  have h0 : classNorm 0 [0] [0] [0] = .ok 0 := by rw [classNorm_zero]; simp [maxNorm]
  by_cases h2 : cf.maxDiag ≥ 2 <;> by_cases h3 : cf.maxDiag ≥ 3 <;>
    simp [sumNorm, h0, h2, h3, bind, Except.bind, pure, Except.pure]

example : classNorm 0 [3 + 4 * Complex.I] [1] [0, 2] = .ok 5 := by
  have h : ‖(3 + 4 * Complex.I : ℂ)‖ = 5 := by
    rw [show (3 + 4 * Complex.I : ℂ) = ⟨3, 4⟩ by apply Complex.ext <;> simp]
    rw [Complex.norm_def, Complex.normSq_mk, show (3 * 3 + 4 * 4 : ℝ) = 5 ^ 2 by norm_num]
    exact Real.sqrt_sq (by norm_num)
  rw [classNorm_zero]
  simp only [maxNorm, List.foldl_cons, List.foldl_nil, h, norm_one, norm_zero, Complex.norm_ofNat]
  norm_num

end Verif.State
