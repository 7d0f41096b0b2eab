import Verif.Quad.Props

/-
C86: splitting the integration domain at features, and semi-infinite tails.
-/
namespace Verif.Quad

variable {E : Type} [NormedAddCommGroup E] [NormedSpace ℝ E]

/-- Six numbers in increasing order. -/
theorem sorted_six (l : List ℝ) (hl : l.length = 6) : ∃ s0 s1 s2 s3 s4 s5 : ℝ,
    l.insertionSort (· ≤ ·) = [s0, s1, s2, s3, s4, s5] ∧ s0 ≤ s1 ∧ s1 ≤ s2 ∧ s2 ≤ s3 ∧ s3 ≤ s4 ∧ s4 ≤ s5 := by
  have hs : (l.insertionSort (· ≤ ·)).length = 6 := by rw [List.length_insertionSort, hl]
  have hp := List.pairwise_insertionSort (· ≤ ·) l
  generalize l.insertionSort (· ≤ ·) = m at hs hp ⊢
  match m, hs with
  | [s0, s1, s2, s3, s4, s5], _ =>
    simp only [List.pairwise_cons, List.mem_cons, List.not_mem_nil, or_false] at hp
    refine ⟨s0, s1, s2, s3, s4, s5, rfl, ?_, ?_, ?_, ?_, ?_⟩ <;> simp [hp]

/-- C86.  Whatever the limits, the features and the width of the windows — in any order, overlapping, outside of the
limits — the pieces cover the range from the smallest to the largest of the six points exactly once.  Hence with the
tails included the result is the integral over the whole axis; without the tails it is the integral from the smallest
to the largest point.  `F` is any antiderivative, `Fm` and `Fp` its limits. -/
theorem c86_pieces (F : ℝ → E) (Fm Fp : E) (I J : ℝ → ℝ → E) (L U : ℝ → E)
    (hI : ∀ x y, x ≤ y → I x y = F y - F x) (hJ : ∀ x y, x ≤ y → J x y = F y - F x)
    (hL : ∀ x, L x = F x - Fm) (hU : ∀ x, U x = Fp - F x) (a b w1 w2 Delta : ℝ) :
    split I J L U a b w1 w2 Delta true = Fp - Fm ∧
      ∃ lo hi, lo ∈ [a, w1 - Delta, w1 + Delta, w2 - Delta, w2 + Delta, b] ∧
        hi ∈ [a, w1 - Delta, w1 + Delta, w2 - Delta, w2 + Delta, b] ∧
        (∀ x ∈ [a, w1 - Delta, w1 + Delta, w2 - Delta, w2 + Delta, b], lo ≤ x ∧ x ≤ hi) ∧
        split I J L U a b w1 w2 Delta false = F hi - F lo := by
  obtain ⟨s0, s1, s2, s3, s4, s5, hs, h1, h2, h3, h4, h5⟩ :=
    sorted_six [a, w1 - Delta, w1 + Delta, w2 - Delta, w2 + Delta, b] rfl
  have hmem : ∀ x, x ∈ [a, w1 - Delta, w1 + Delta, w2 - Delta, w2 + Delta, b] ↔ x ∈ [s0, s1, s2, s3, s4, s5] :=
    fun x => by rw [← hs, List.mem_insertionSort]
  have e : split I J L U a b w1 w2 Delta false = F s5 - F s0 := by
    simp only [split, hs, List.getD_cons_zero, List.getD_cons_succ, Bool.false_eq_true, if_false]
    rw [hI _ _ h4, hI _ _ h2, hJ _ _ h1, hJ _ _ h3, hJ _ _ h5]
    abel
  have e' : split I J L U a b w1 w2 Delta true = split I J L U a b w1 w2 Delta false + L s0 + U s5 := by
    simp only [split, hs, List.getD_cons_zero, List.getD_cons_succ, Bool.false_eq_true, if_false, if_true]
  constructor
  · rw [e', e, hL, hU]
    abel
  · refine ⟨s0, s5, (hmem _).mpr (by simp), (hmem _).mpr (by simp), fun x hx => ?_, e⟩
    have := (hmem x).mp hx
    simp only [List.mem_cons, List.not_mem_nil, or_false] at this
    rcases this with h | h | h | h | h | h <;> constructor <;> linarith

/-- C86 (partial: without the tails, if both windows lie within the limits). -/
theorem c86_finite_partial (F : ℝ → E) (I J : ℝ → ℝ → E) (L U : ℝ → E)
    (hI : ∀ x y, x ≤ y → I x y = F y - F x) (hJ : ∀ x y, x ≤ y → J x y = F y - F x) (a b w1 w2 Delta : ℝ)
    (hD : 0 ≤ Delta) (h1 : a ≤ w1 - Delta) (h2 : a ≤ w2 - Delta) (h3 : w1 + Delta ≤ b) (h4 : w2 + Delta ≤ b) :
    split I J L U a b w1 w2 Delta false = F b - F a := by
  obtain ⟨-, lo, hi, m1, m2, hall, he⟩ := c86_pieces F 0 0 I J (fun x => F x - 0) (fun x => 0 - F x) hI hJ
    (fun _ => rfl) (fun _ => rfl) a b w1 w2 Delta
  have ha := hall a (by simp)
  have hb := hall b (by simp)
  have e1 : lo = a := by
    simp only [List.mem_cons, List.not_mem_nil, or_false] at m1
    rcases m1 with h | h | h | h | h | h <;> linarith
  have e2 : hi = b := by
    simp only [List.mem_cons, List.not_mem_nil, or_false] at m2
    rcases m2 with h | h | h | h | h | h <;> linarith
  rw [e1, e2] at he
  rw [← he]
  simp only [split, Bool.false_eq_true, if_false]

/-- C86 fails without the tails when a window sticks out of the limits: the integral of the constant 1 from 0 to 1, with
features at 0 and windows of half width 1, is returned as 2. -/
theorem c86_window_refuted : split (fun x y => y - x) (fun x y => y - x) (fun _ => 0) (fun _ => 0) 0 1 0 0 1 false =
    (2 : ℝ) := by
  obtain ⟨-, lo, hi, m1, m2, hall, he⟩ := c86_pieces (fun x : ℝ => x) 0 0 (fun x y => y - x) (fun x y => y - x)
    (fun x => x - 0) (fun x => 0 - x) (fun _ _ _ => rfl) (fun _ _ _ => rfl) (fun _ => rfl) (fun _ => rfl) 0 1 0 0 1
  have ha := hall (0 - 1) (by simp)
  have hb := hall (0 + 1) (by simp)
  have e1 : lo = -1 := by
    simp only [List.mem_cons, List.not_mem_nil, or_false] at m1
    rcases m1 with h | h | h | h | h | h <;> linarith
  have e2 : hi = 1 := by
    simp only [List.mem_cons, List.not_mem_nil, or_false] at m2
    rcases m2 with h | h | h | h | h | h <;> linarith
  simp only [split, Bool.false_eq_true, if_false] at he ⊢
  rw [he, e1, e2]
  norm_num

/-! Tails. -/

theorem refine_congr {f g : ℝ → E} {A B : ℝ} (hfg : ∀ x, A ≤ x → x ≤ B → f x = g x) (tolRel : ℝ) (is : E) :
    ∀ (n : Nat) (a b : ℝ) (fa fb : E), A ≤ a → a ≤ b → b ≤ B →
      refine f tolRel is n a b fa fb = refine g tolRel is n a b fa fb := by
  intro n
  induction n with
  | zero => intros; rfl
  | succ n ih =>
    intro a b fa fb hA hab hB
    obtain ⟨o1, o2, o3, o4, o5, o6, -⟩ := nodes_order hab
    have e0 := hfg (1 / 2 * (a + b) - alpha * (1 / 2 * (b - a))) (by linarith) (by linarith)
    have e1 := hfg (1 / 2 * (a + b) - beta * (1 / 2 * (b - a))) (by linarith) (by linarith)
    have e2 := hfg (1 / 2 * (a + b)) (by linarith) (by linarith)
    have e3 := hfg (1 / 2 * (a + b) + beta * (1 / 2 * (b - a))) (by linarith) (by linarith)
    have e4 := hfg (1 / 2 * (a + b) + alpha * (1 / 2 * (b - a))) (by linarith) (by linarith)
    rw [refine, refine]
    rw [e0, e1, e2, e3, e4]
    rw [ih _ _ _ _ hA o1 (by linarith), ih _ _ _ _ (by linarith) o2 (by linarith),
      ih _ _ _ _ (by linarith) o3 (by linarith), ih _ _ _ _ (by linarith) o4 (by linarith),
      ih _ _ _ _ (by linarith) o5 (by linarith), ih _ _ _ _ (by linarith) o6 hB]

/-- The result depends only on the integrand between the limits. -/
theorem integrate_congr {f g : ℝ → E} {a b : ℝ} (hab : a ≤ b) (hfg : ∀ x, a ≤ x → x ≤ b → f x = g x) (tol : ℝ)
    (n : Nat) : integrate tol f n a b = integrate tol g n a b ∧ estimate13 f a b = estimate13 g a b := by
  obtain ⟨o1, o2, o3, o4, o5, o6, -⟩ := nodes_order hab
  have em : 1 / 2 * (b + a) = 1 / 2 * (a + b) := by ring
  have hh : 0 ≤ 1 / 2 * (b - a) := by linarith
  have inner : ∀ t : ℝ, -1 ≤ t → t ≤ 1 → f (1 / 2 * (a + b) + t * (1 / 2 * (b - a))) =
      g (1 / 2 * (a + b) + t * (1 / 2 * (b - a))) := fun t h1 h2 => by
    have k1 := mul_le_mul_of_nonneg_right h1 hh
    have k2 := mul_le_mul_of_nonneg_right h2 hh
    exact hfg _ (by linarith) (by linarith)
  have a1 := alpha_lt
  have a2 := alpha_pos
  have b1 := beta_lt
  have b2 := beta_pos
  have ea := hfg a le_rfl hab
  have eb := hfg b hab le_rfl
  have n1 := inner alpha (by linarith) (by linarith)
  have n2 := inner (-alpha) (by linarith) (by linarith)
  have n3 := inner beta (by linarith) (by linarith)
  have n4 := inner (-beta) (by linarith) (by linarith)
  have n5 := inner 0 (by norm_num) (by norm_num)
  have he : estimate13 f a b = estimate13 g a b := by
    simp only [estimate13, em]
    rw [ea, eb, n1, n2, n3, n4, n5, inner x1 (by norm_num [x1]) (by norm_num [x1]),
      inner (-x1) (by norm_num [x1]) (by norm_num [x1]), inner x2 (by norm_num [x2]) (by norm_num [x2]),
      inner (-x2) (by norm_num [x2]) (by norm_num [x2]), inner x3 (by norm_num [x3]) (by norm_num [x3]),
      inner (-x3) (by norm_num [x3]) (by norm_num [x3])]
  refine ⟨?_, he⟩
  simp only [integrate, em, he, ea, eb, n1, n2, n3, n4, n5]
  have m2 : 1 / 2 * (a + b) + -alpha * (1 / 2 * (b - a)) = 1 / 2 * (a + b) - alpha * (1 / 2 * (b - a)) := by ring
  have m4 : 1 / 2 * (a + b) + -beta * (1 / 2 * (b - a)) = 1 / 2 * (a + b) - beta * (1 / 2 * (b - a)) := by ring
  have m6 : 1 / 2 * (a + b) + 0 * (1 / 2 * (b - a)) = 1 / 2 * (a + b) := by ring
  rw [m2, m4, m6]
  rw [refine_congr hfg _ _ n _ _ _ _ le_rfl o1 (by linarith), refine_congr hfg _ _ n _ _ _ _ (by linarith) o2 (by linarith),
    refine_congr hfg _ _ n _ _ _ _ (by linarith) o3 (by linarith), refine_congr hfg _ _ n _ _ _ _ (by linarith) o4 (by linarith),
    refine_congr hfg _ _ n _ _ _ _ (by linarith) o5 (by linarith), refine_congr hfg _ _ n _ _ _ _ (by linarith) o6 le_rfl]

theorem tail_poly (d : Nat) (hd : d ≤ 9) (co : Nat → E) (tol : ℝ) (n : Nat) (v : E) (g : ℝ → E)
    (hg : ∀ x, 1 / 10 ^ 14 ≤ x → x ≤ 1 → g x = ∑ k ∈ Finset.range (d + 1), x ^ k • co k)
    (h : integrate tol g n (1 / 10 ^ 14) 1 = some v) :
    v = ∑ k ∈ Finset.range (d + 1), ((1 - (1 / 10 ^ 14) ^ (k + 1)) / (k + 1) : ℝ) • co k ∨
      (v = 0 ∧ ‖estimate13 g (1 / 10 ^ 14) 1‖ < 1 / 10 ^ 20) := by
  obtain ⟨e1, e2⟩ := integrate_congr (by norm_num) hg tol n
  rw [e1] at h
  rw [e2]
  rcases integrate_exact (exact_poly d hd co) tol n _ _ v h with ⟨h', hz⟩ | h'
  · right
    refine ⟨h', hz.resolve_right ?_⟩
    norm_num
  · left
    rw [h', ← Finset.sum_sub_distrib]
    refine Finset.sum_congr rfl fun k _ => ?_
    rw [← sub_smul, one_pow, sub_div]

/-- C86 (tails).  For sums of powers `1 / (1 + (t - c)) ^ (k + 2)`, `k ≤ 9`, the upper tail integrator returns exactly the
integral from `c` to `c + 10¹⁴ - 1`; the integral to infinity has `1 / (k + 1)` in place of
`(1 - 10⁻¹⁴⁽ᵏ⁺¹⁾) / (k + 1)`.  (Zero if the 13-point estimate is below `10⁻²⁰`.) -/
theorem c86_upper_tail (d : Nat) (hd : d ≤ 9) (co : Nat → E) (c tol : ℝ) (n : Nat) (v : E)
    (h : upperTail tol (fun t => ∑ k ∈ Finset.range (d + 1), (1 / (1 + (t - c)) ^ (k + 2)) • co k) n c = some v) :
    v = ∑ k ∈ Finset.range (d + 1), ((1 - (1 / 10 ^ 14) ^ (k + 1)) / (k + 1) : ℝ) • co k ∨
      (v = 0 ∧ ‖estimate13 (fun x => ∑ k ∈ Finset.range (d + 1), x ^ k • co k) (1 / 10 ^ 14) 1‖ < 1 / 10 ^ 20) := by
  have hg : ∀ x : ℝ, 1 / 10 ^ 14 ≤ x → x ≤ 1 → (1 / (x * x)) • ∑ k ∈ Finset.range (d + 1),
      (1 / (1 + ((c + (1 - x) / x) - c)) ^ (k + 2)) • co k = ∑ k ∈ Finset.range (d + 1), x ^ k • co k := by
    intro x hx _
    have hx0 : x ≠ 0 := by
      have : (0 : ℝ) < 1 / 10 ^ 14 := by norm_num
      linarith
    rw [Finset.smul_sum]
    refine Finset.sum_congr rfl fun k _ => ?_
    have e : 1 + ((c + (1 - x) / x) - c) = 1 / x := by field_simp; ring
    rw [e, smul_smul]
    congr 1
    rw [one_div_pow, one_div_one_div, pow_add]
    field_simp
  have := tail_poly d hd co tol n v _ hg h
  rwa [(integrate_congr (by norm_num) hg tol n).2] at this

/-- The lower tail is the mirror image. -/
theorem c86_lower_tail (d : Nat) (hd : d ≤ 9) (co : Nat → E) (c tol : ℝ) (n : Nat) (v : E)
    (h : lowerTail tol (fun t => ∑ k ∈ Finset.range (d + 1), (1 / (1 + (c - t)) ^ (k + 2)) • co k) n c = some v) :
    v = ∑ k ∈ Finset.range (d + 1), ((1 - (1 / 10 ^ 14) ^ (k + 1)) / (k + 1) : ℝ) • co k ∨
      (v = 0 ∧ ‖estimate13 (fun x => ∑ k ∈ Finset.range (d + 1), x ^ k • co k) (1 / 10 ^ 14) 1‖ < 1 / 10 ^ 20) := by
  have hg : ∀ x : ℝ, 1 / 10 ^ 14 ≤ x → x ≤ 1 → (1 / (x * x)) • ∑ k ∈ Finset.range (d + 1),
      (1 / (1 + (c - (c - (1 - x) / x))) ^ (k + 2)) • co k = ∑ k ∈ Finset.range (d + 1), x ^ k • co k := by
    intro x hx _
    have hx0 : x ≠ 0 := by
      have : (0 : ℝ) < 1 / 10 ^ 14 := by norm_num
      linarith
    rw [Finset.smul_sum]
    refine Finset.sum_congr rfl fun k _ => ?_
    have e : 1 + (c - (c - (1 - x) / x)) = 1 / x := by field_simp; ring
    rw [e, smul_smul]
    congr 1
    rw [one_div_pow, one_div_one_div, pow_add]
    field_simp
  have := tail_poly d hd co tol n v _ hg h
  rwa [(integrate_congr (by norm_num) hg tol n).2] at this

/-- Upper tail of `1 / (1 + t) ^ 2` from 0: a depth that suffices exists, and the result is `1 - 10⁻¹⁴`. -/
example (tol : ℝ) : ∃ N, ∀ n, N ≤ n → upperTail tol (fun t : ℝ => 1 / (1 + t) ^ 2) n 0 = some (1 - 1 / 10 ^ 14) := by
  have hg : ∀ x : ℝ, 1 / 10 ^ 14 ≤ x → x ≤ 1 → (1 / (x * x)) • (1 / (1 + (0 + (1 - x) / x)) ^ 2) = 1 := by
    intro x hx _
    have hx0 : x ≠ 0 := by
      have : (0 : ℝ) < 1 / 10 ^ 14 := by norm_num
      linarith
    have e : 1 + (0 + (1 - x) / x) = 1 / x := by field_simp; ring
    rw [e, smul_eq_mul]
    field_simp
  obtain ⟨N, v, hv⟩ := c85_terminates (fun x : ℝ => (1 / (x * x)) • (1 / (1 + (0 + (1 - x) / x)) ^ 2)) (1 / 10 ^ 14) 1 1
    (fun x h1 h2 => by rw [hg x h1 h2]; simp) tol
  refine ⟨N, fun n hn => ?_⟩
  have h := hv n hn
  have h' := tail_poly 0 (by norm_num) (fun _ => (1 : ℝ)) tol n v _ (fun x h1 h2 => by rw [hg x h1 h2]; simp) h
  rw [upperTail, h]
  congr 1
  rcases h' with h' | ⟨-, h'⟩
  · rw [h']; simp
  · rw [(integrate_congr (g := fun _ => (1 : ℝ)) (by norm_num) hg tol n).2] at h'
    exfalso
    simp only [estimate13, kronrod13, smul_eq_mul, Real.norm_eq_abs] at h'
    rw [abs_of_nonneg (by norm_num)] at h'
    norm_num at h'

end Verif.Quad
