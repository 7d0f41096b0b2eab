import Verif.Hartree.Model
import Mathlib.Topology.UniformSpace.HeineCantor
import Mathlib.Topology.Order.Compact
import Mathlib.Analysis.Calculus.MeanValue
import Mathlib.Analysis.SpecialFunctions.Trigonometric.ArctanDeriv
import Mathlib.Analysis.Real.Pi.Bounds
import Mathlib.Tactic.Linarith
import Mathlib.Tactic.NormNum
import Mathlib.Tactic.FieldSimp
import Mathlib.Tactic.Ring
import Mathlib.Tactic.Positivity

/-! C60, C61: the Hartree loops; C78: the Friedel loop. -/
namespace Verif.Hartree

/-- `n` solves the self-consistency condition `n = F(n)` to the threshold. -/
def Solves (F : ℝ → ℝ) (thr n : ℝ) : Prop := |F n - n| ≤ thr

/-- An occupation map as the loop sees it: never NaN. -/
def total (F : ℝ → ℝ) : ℝ → Option ℝ := fun x => some (F x)

theorem bstep_total (F : ℝ → ℝ) (thr lo hi : ℝ) :
    bstep (total F) thr lo hi =
      if thr < |F ((lo + hi) / 2) - (lo + hi) / 2| ∧ F ((lo + hi) / 2) - (lo + hi) / 2 ≠ 0 then
        (if F ((lo + hi) / 2) - (lo + hi) / 2 > 0 then .going ((lo + hi) / 2) hi else .going lo ((lo + hi) / 2))
      else .done ((lo + hi) / 2) := by
  set d := F ((lo + hi) / 2) - (lo + hi) / 2 with hd
  have e : bstep (total F) thr lo hi =
    if d > 0 then (if |d| > thr then .going ((lo + hi) / 2) hi else .done ((lo + hi) / 2))
    else if d < 0 then (if |d| > thr then .going lo ((lo + hi) / 2) else .done ((lo + hi) / 2))
    else .done ((lo + hi) / 2) := rfl
  rw [e]
  rcases lt_trichotomy d 0 with h | h | h
  · rw [if_neg (not_lt.mpr h.le), if_pos h]
    by_cases ht : thr < |d|
    · rw [if_pos ht, if_pos ⟨ht, h.ne⟩, if_neg (not_lt.mpr h.le)]
    · rw [if_neg ht, if_neg (fun hh => ht hh.1)]
  · rw [if_neg (by rw [h]; exact lt_irrefl _), if_neg (by rw [h]; exact lt_irrefl _),
      if_neg (fun hh => hh.2 h)]
  · rw [if_pos h]
    by_cases ht : thr < |d|
    · rw [if_pos ht, if_pos ⟨ht, h.ne'⟩, if_pos h]
    · rw [if_neg ht, if_neg (fun hh => ht hh.1)]

/-- Sign-changing bracket inside the unit interval. -/
def Bracket (F : ℝ → ℝ) (lo hi : ℝ) : Prop :=
  0 ≤ lo ∧ lo < hi ∧ hi ≤ 1 ∧ lo ≤ F lo ∧ F hi ≤ hi

theorem bstep_inv (F : ℝ → ℝ) (thr lo hi lo' hi' : ℝ) (hb : Bracket F lo hi)
    (h : bstep (total F) thr lo hi = .going lo' hi') :
    Bracket F lo' hi' ∧ hi' - lo' = (hi - lo) / 2 ∧ lo ≤ lo' ∧ hi' ≤ hi := by
  obtain ⟨h1, h2, h3, h4, h5⟩ := hb
  rw [bstep_total] at h
  split at h
  · split at h
    · injection h with e1 e2
      subst e1; subst e2
      rename_i hp
      exact ⟨⟨by linarith, by linarith, h3, by linarith, h5⟩, by ring, by linarith, le_refl _⟩
    · injection h with e1 e2
      subst e1; subst e2
      rename_i hp
      exact ⟨⟨h1, by linarith, by linarith, h4, by linarith⟩, by ring, le_refl _, by linarith⟩
  · cases h

/-- **C60** (bracket).  For every occupation map of the unit interval into itself, the bracket after `k`
iterations lies in the unit interval, changes sign (so contains a solution, if the map is continuous)
and has length `2^(-k)`; it is contained in the bracket before. -/
theorem c60_bracket (F : ℝ → ℝ) (hF : ∀ x ∈ Set.Icc (0:ℝ) 1, F x ∈ Set.Icc (0:ℝ) 1) (thr : ℝ) :
    ∀ (k : ℕ) (lo hi : ℝ), bracketAfter (total F) thr k = .going lo hi →
      0 ≤ lo ∧ hi ≤ 1 ∧ lo ≤ F lo ∧ F hi ≤ hi ∧ hi - lo = (1/2) ^ k ∧
      (ContinuousOn F (Set.Icc 0 1) → ∃ x ∈ Set.Icc lo hi, F x = x) := by
  have key : ∀ (k : ℕ) (lo hi : ℝ), bracketAfter (total F) thr k = .going lo hi →
      Bracket F lo hi ∧ hi - lo = (1/2) ^ k := by
    intro k
    induction k with
    | zero =>
      intro lo hi h
      injection h with e1 e2
      subst e1; subst e2
      refine ⟨⟨le_refl _, one_pos, le_refl _, (hF 0 (by simp)).1, (hF 1 (by simp)).2⟩, by norm_num⟩
    | succ k ih =>
      intro lo hi h
      rw [bracketAfter] at h
      cases hk : bracketAfter (total F) thr k with
      | done n => rw [hk] at h; cases h
      | going l u =>
        rw [hk] at h
        obtain ⟨hb, hl⟩ := ih l u hk
        obtain ⟨hb', hl', _⟩ := bstep_inv F thr l u lo hi hb h
        exact ⟨hb', by rw [hl', hl, pow_succ]; ring⟩
  intro k lo hi h
  obtain ⟨⟨h1, h2, h3, h4, h5⟩, hl⟩ := key k lo hi h
  refine ⟨h1, h3, h4, h5, hl, fun hc => ?_⟩
  have hsub : Set.Icc lo hi ⊆ Set.Icc 0 1 := Set.Icc_subset_Icc h1 h3
  have hc' : ContinuousOn (fun x => F x - x) (Set.Icc lo hi) := (hc.mono hsub).sub continuousOn_id
  have : (0:ℝ) ∈ (fun x => F x - x) '' Set.Icc lo hi :=
    intermediate_value_Icc' h2.le hc' ⟨by linarith, by linarith⟩
  obtain ⟨x, hx, hx0⟩ := this
  exact ⟨x, hx, by simp only at hx0; linarith⟩

/-- The loop returns a solution as soon as the deviation over half a bracket is below the threshold. -/
theorem bloop_ok (F : ℝ → ℝ) (thr δ : ℝ)
    (hu : ∀ x ∈ Set.Icc (0:ℝ) 1, ∀ y ∈ Set.Icc (0:ℝ) 1, |x - y| ≤ δ → |(F x - x) - (F y - y)| ≤ thr) :
    ∀ (k : ℕ) (lo hi : ℝ), Bracket F lo hi → (hi - lo) ≤ 2 * δ * 2 ^ k →
      ∃ n, bloop (total F) thr (k + 1) lo hi = .ok n ∧ n ∈ Set.Icc (0:ℝ) 1 ∧ Solves F thr n := by
  intro k
  induction k with
  | zero =>
    intro lo hi hb hl
    have hb' := hb
    obtain ⟨h1, h2, h3, h4, h5⟩ := hb
    set m := (lo + hi) / 2 with hm
    have hm01 : m ∈ Set.Icc (0:ℝ) 1 := ⟨by linarith, by linarith⟩
    have hsol : Solves F thr m := by
      unfold Solves
      rcases le_total 0 (F m - m) with hs | hs
      · have := hu m hm01 hi ⟨by linarith, h3⟩ (by rw [abs_le]; constructor <;> linarith)
        rw [abs_le] at this ⊢
        constructor <;> linarith
      · have := hu m hm01 lo ⟨h1, by linarith⟩ (by rw [abs_le]; constructor <;> linarith)
        rw [abs_le] at this ⊢
        constructor <;> linarith
    refine ⟨m, ?_, hm01, hsol⟩
    rw [bloop, bstep_total, if_neg (fun hh => absurd hh.1 (not_lt.mpr hsol))]
  | succ k ih =>
    intro lo hi hb hl
    cases hs : bstep (total F) thr lo hi with
    | going l u =>
      obtain ⟨hb', hl', _⟩ := bstep_inv F thr lo hi l u hb hs
      obtain ⟨n, hn, h⟩ := ih l u hb' (by rw [hl']; rw [pow_succ] at hl; linarith)
      exact ⟨n, by rw [bloop, hs]; exact hn, h⟩
    | done n =>
      obtain ⟨h1, h2, h3, _, _⟩ := hb
      refine ⟨n, by rw [bloop, hs], ?_⟩
      rw [bstep_total] at hs
      split at hs
      · split at hs <;> cases hs
      · rename_i hc
        injection hs with e
        subst e
        refine ⟨⟨by linarith, by linarith⟩, ?_⟩
        unfold Solves
        by_contra hcon
        refine hc ⟨lt_of_not_ge hcon, fun h0 => ?_⟩
        rw [h0, abs_zero] at hcon
        have := hu 0 (by simp) 0 (by simp) (by
          rw [sub_zero, abs_zero]
          have hp : (0:ℝ) < 2 ^ (k + 1) := by positivity
          by_contra hd
          have : 2 * δ * 2 ^ (k + 1) < 0 := mul_neg_of_neg_of_pos (by linarith) hp
          linarith)
        rw [sub_self, abs_zero] at this
        exact hcon this

/-- **C60** (termination, rate).  For an occupation map of the unit interval into itself with Lipschitz
constant `K`, a budget of `k + 1` iterations with `K + 1 ≤ 2·thr·2^k` suffices: the bisection returns an
occupation in the unit interval that solves the condition to the threshold. -/
theorem c60_terminates_lipschitz (F : ℝ → ℝ) (hF : ∀ x ∈ Set.Icc (0:ℝ) 1, F x ∈ Set.Icc (0:ℝ) 1)
    (K thr : ℝ) (hK : 0 ≤ K) (hthr : 0 < thr)
    (hL : ∀ x ∈ Set.Icc (0:ℝ) 1, ∀ y ∈ Set.Icc (0:ℝ) 1, |F x - F y| ≤ K * |x - y|)
    (k budget : ℕ) (hk : K + 1 ≤ 2 * thr * 2 ^ k) (hbud : k < budget) :
    ∃ n, bracketing budget (total F) thr = .ok n ∧ n ∈ Set.Icc (0:ℝ) 1 ∧ Solves F thr n := by
  unfold bracketing
  by_cases h1 : 1 > thr
  · rw [if_pos h1]
    obtain ⟨j, rfl⟩ : ∃ j, budget = j + 1 := ⟨budget - 1, by omega⟩
    refine bloop_ok F thr (thr / (K + 1)) ?_ j 0 1 ⟨le_refl _, one_pos, le_refl _, (hF 0 (by simp)).1, (hF 1 (by simp)).2⟩ ?_
    · intro x hx y hy hxy
      have h2 := hL x hx y hy
      have h3 : |(F x - x) - (F y - y)| ≤ |F x - F y| + |x - y| := by
        have : (F x - x) - (F y - y) = (F x - F y) - (x - y) := by ring
        rw [this]; exact abs_sub _ _
      have h4 : (K + 1) * |x - y| ≤ thr := by
        have := mul_le_mul_of_nonneg_left hxy (by linarith : 0 ≤ K + 1)
        rwa [mul_div_cancel₀ _ (by linarith : K + 1 ≠ 0)] at this
      linarith
    · have hp : (2:ℝ) ^ k ≤ 2 ^ j := pow_le_pow_right₀ (by norm_num) (by omega)
      have : K + 1 ≤ 2 * thr * 2 ^ j := le_trans hk (mul_le_mul_of_nonneg_left hp (by linarith))
      have hk1 : 0 < K + 1 := by linarith
      rw [sub_zero]
      have e : 2 * (thr / (K + 1)) * 2 ^ j = (2 * thr * 2 ^ j) / (K + 1) := by ring
      rw [e, le_div_iff₀ hk1]; linarith
  · rw [if_neg h1]
    refine ⟨1/2, rfl, by norm_num, ?_⟩
    obtain ⟨a, b⟩ := hF (1/2) (by norm_num)
    unfold Solves; rw [abs_le]; constructor <;> linarith

/-- **C60** (termination, continuous maps).  For every continuous occupation map of the unit interval into
itself and every positive threshold some iteration budget suffices. -/
theorem c60_terminates_continuous (F : ℝ → ℝ) (hF : ∀ x ∈ Set.Icc (0:ℝ) 1, F x ∈ Set.Icc (0:ℝ) 1)
    (hc : ContinuousOn F (Set.Icc 0 1)) (thr : ℝ) (hthr : 0 < thr) :
    ∃ N, ∀ budget, N < budget →
      ∃ n, bracketing budget (total F) thr = .ok n ∧ n ∈ Set.Icc (0:ℝ) 1 ∧ Solves F thr n := by
  have hc' : ContinuousOn (fun x => F x - x) (Set.Icc (0:ℝ) 1) := hc.sub continuousOn_id
  have huc := isCompact_Icc.uniformContinuousOn_of_continuous hc'
  rw [Metric.uniformContinuousOn_iff] at huc
  obtain ⟨δ, hδ, h⟩ := huc thr hthr
  obtain ⟨N, hN⟩ := pow_unbounded_of_one_lt (1 / δ) (by norm_num : (1:ℝ) < 2)
  refine ⟨N, fun budget hb => ?_⟩
  unfold bracketing
  by_cases h1 : 1 > thr
  · rw [if_pos h1]
    obtain ⟨j, rfl⟩ : ∃ j, budget = j + 1 := ⟨budget - 1, by omega⟩
    refine bloop_ok F thr (δ / 2) ?_ j 0 1 ⟨le_refl _, one_pos, le_refl _, (hF 0 (by simp)).1, (hF 1 (by simp)).2⟩ ?_
    · intro x hx y hy hxy
      have := h x hx y hy (by rw [Real.dist_eq]; linarith)
      rw [Real.dist_eq] at this
      exact this.le
    · have hp : (2:ℝ) ^ N ≤ 2 ^ j := pow_le_pow_right₀ (by norm_num) (by omega)
      have h2 : 1 / δ < 2 ^ j := lt_of_lt_of_le hN hp
      rw [div_lt_iff₀ hδ] at h2
      linarith
  · rw [if_neg h1]
    refine ⟨1/2, rfl, by norm_num, ?_⟩
    obtain ⟨a, b⟩ := hF (1/2) (by norm_num)
    unfold Solves; rw [abs_le]; constructor <;> linarith

/-- **C60** (accuracy).  A decreasing occupation map has the residual as an error bound: an occupation that
solves the condition to the threshold differs from the exact solution by at most the threshold. -/
theorem c60_accuracy (F : ℝ → ℝ) (hF : ∀ x y, x ≤ y → F y ≤ F x) (thr n n₀ : ℝ) (hn : Solves F thr n)
    (h₀ : F n₀ = n₀) : |n - n₀| ≤ thr := by
  unfold Solves at hn
  rw [abs_le] at hn ⊢
  rcases le_total n n₀ with h | h
  · have := hF n n₀ h; constructor <;> linarith
  · have := hF n₀ n h; constructor <;> linarith

/-- **C61** (soundness of the bisection for maps that do not return NaN): whatever the map, also
discontinuous, a returned occupation solves the condition to the threshold; otherwise the loop ends with
an assertion. -/
theorem c61_bracketing_sound_partial (F : ℝ → ℝ) (thr : ℝ) (h0 : 0 ≤ thr) (h1 : thr < 1) (budget : ℕ) :
    (∃ n, bracketing budget (total F) thr = .ok n ∧ Solves F thr n) ∨
      bracketing budget (total F) thr = .error .assertion := by
  unfold bracketing
  rw [if_pos h1]
  generalize (0:ℝ) = lo, (1:ℝ) = hi
  induction budget generalizing lo hi with
  | zero => exact Or.inr rfl
  | succ k ih =>
    rw [bloop]
    cases hs : bstep (total F) thr lo hi with
    | going l u => exact ih l u
    | done n =>
      refine Or.inl ⟨n, rfl, ?_⟩
      rw [bstep_total] at hs
      split at hs
      · split at hs <;> cases hs
      · rename_i hc
        injection hs with e
        subst e
        unfold Solves
        by_contra hcon
        refine hc ⟨lt_of_not_ge hcon, fun hz => hcon ?_⟩
        rw [hz, abs_zero]; exact h0

/-- **C61** is false of the bisection when the occupation is NaN: it returns 1/2 as if exact. -/
theorem c61_bracketing_nan_refuted :
    ∃ F : ℝ → Option ℝ, (∀ x, F x = none) ∧ ∀ thr < 1, bracketing 100000 F thr = .ok (1 / 2) := by
  refine ⟨fun _ => none, fun _ => rfl, fun thr h => ?_⟩
  unfold bracketing
  rw [if_pos h, bloop]
  have : bstep (fun _ => none) thr 0 1 = .done ((0 + 1) / 2) := rfl
  rw [this]; norm_num

/-- **C61** (plain iteration, what does hold).  If the plain iteration stops with a finite value, that value
is the image of an occupation solving the condition to the threshold, so for a map with Lipschitz
constant `K` it solves the condition to `K` times the threshold. -/
theorem c61_iteration_partial (F : ℝ → ℝ) (K thr : ℝ)
    (hL : ∀ x y, |F x - F y| ≤ K * |x - y|) (hK : 0 ≤ K) :
    ∀ (fuel : ℕ) (n₀ n : ℝ), fixLoop (total F) thr fuel n₀ = some (some n) → Solves F (K * thr) n := by
  intro fuel
  induction fuel with
  | zero => intro n₀ n h; cases h
  | succ k ih =>
    intro n₀ n h
    have e : fixLoop (total F) thr (k + 1) n₀ =
      if |F n₀ - n₀| > thr then fixLoop (total F) thr k (F n₀) else some (some (F n₀)) := rfl
    rw [e] at h
    split at h
    · exact ih _ _ h
    · rename_i hc
      simp only [Option.some.injEq] at h
      subst h
      exact le_trans (hL _ _) (mul_le_mul_of_nonneg_left (not_lt.mp hc) hK)

/-- **C61** (plain iteration, contraction).  For a contraction with constant `K` the plain iteration stops
after at most `k + 1` iterations, where `K^k` times the first deviation is below the threshold. -/
theorem c61_iteration_terminates_partial (F : ℝ → ℝ) (K thr : ℝ)
    (hL : ∀ x y, |F x - F y| ≤ K * |x - y|) (hK : 0 ≤ K) :
    ∀ (k : ℕ) (n₀ : ℝ), K ^ k * |F n₀ - n₀| ≤ thr → ∃ n, fixLoop (total F) thr (k + 1) n₀ = some (some n) := by
  intro k
  induction k with
  | zero =>
    intro n₀ h
    refine ⟨F n₀, ?_⟩
    show (if |F n₀ - n₀| > thr then _ else some (some (F n₀))) = _
    rw [if_neg (by simpa using h)]
  | succ k ih =>
    intro n₀ h
    have e : fixLoop (total F) thr (k + 1 + 1) n₀ =
      if |F n₀ - n₀| > thr then fixLoop (total F) thr (k + 1) (F n₀) else some (some (F n₀)) := rfl
    rw [e]
    split
    · apply ih
      refine le_trans (mul_le_mul_of_nonneg_left (hL _ _) (pow_nonneg hK k)) ?_
      rw [pow_succ] at h
      linarith
    · exact ⟨_, rfl⟩

/-- The two-cycle map used below: continuous, decreasing, into the unit interval. -/
noncomputable def cycleMap (x : ℝ) : ℝ := max 0 (3 / 4 - x)

/-- **C61** is false of the plain iteration: for a continuous decreasing occupation map of the unit interval
into itself it never stops (it alternates between 1/2 and 1/4), although the bisection does. -/
theorem c61_iteration_refuted :
    ∃ F : ℝ → ℝ, Continuous F ∧ (∀ x y, x ≤ y → F y ≤ F x) ∧ (∀ x ∈ Set.Icc (0:ℝ) 1, F x ∈ Set.Icc (0:ℝ) 1) ∧
      ∀ fuel, fixLoop (total F) (1 / 10 ^ 12) fuel (1 / 2) = none := by
  refine ⟨cycleMap, continuous_const.max (continuous_const.sub continuous_id), ?_, ?_, ?_⟩
  · intro x y h; exact max_le_max le_rfl (by linarith)
  · intro x hx; exact ⟨le_max_left _ _, max_le (by norm_num) (by linarith [hx.1])⟩
  · have h1 : cycleMap (1/2) = 1/4 := by unfold cycleMap; norm_num
    have h2 : cycleMap (1/4) = 1/2 := by unfold cycleMap; norm_num
    have key : ∀ fuel, fixLoop (total cycleMap) (1 / 10 ^ 12) fuel (1 / 2) = none ∧
        fixLoop (total cycleMap) (1 / 10 ^ 12) fuel (1 / 4) = none := by
      intro fuel
      induction fuel with
      | zero => exact ⟨rfl, rfl⟩
      | succ k ih =>
        constructor
        · show (if |cycleMap (1/2) - 1/2| > _ then fixLoop (total cycleMap) (1 / 10 ^ 12) k (cycleMap (1/2)) else _) = _
          rw [h1, if_pos (by norm_num [abs_lt])]; exact ih.2
        · show (if |cycleMap (1/4) - 1/4| > _ then fixLoop (total cycleMap) (1 / 10 ^ 12) k (cycleMap (1/4)) else _) = _
          rw [h2, if_pos (by norm_num [abs_lt])]; exact ih.1
    exact fun fuel => (key fuel).1

/-- **C61** is also false of the plain iteration for NaN: it stops and returns NaN. -/
theorem c61_iteration_nan_refuted :
    fixLoop (fun _ => none) (1 / 10 ^ 12) 1 (1 / 2) = some none := rfl

/-! ### The Friedel sum rule -/

theorem abs_arctan_sub_le (x y : ℝ) : |Real.arctan x - Real.arctan y| ≤ |x - y| := by
  have h := Convex.norm_image_sub_le_of_norm_deriv_le (f := Real.arctan) (C := 1) (s := Set.univ) (x := y) (y := x)
    (fun z _ => Real.differentiableAt_arctan z)
    (fun z _ => by
      rw [Real.deriv_arctan, Real.norm_eq_abs, abs_of_nonneg (by positivity), div_le_one (by positivity)]
      nlinarith [sq_nonneg z]) convex_univ trivial trivial
  simpa [Real.norm_eq_abs] using h

theorem friedelMap_lipschitz (U eps Delta x y : ℝ) (hD : 0 < Delta) :
    |friedelMap U eps Delta x - friedelMap U eps Delta y| ≤ |U| / (Real.pi * Delta) * |x - y| := by
  have hpi := Real.pi_pos
  have e : friedelMap U eps Delta x - friedelMap U eps Delta y =
      -(1 / Real.pi) * (Real.arctan ((U * (1/2) + eps) / Delta + U / Delta * (x - 1 / 2)) -
        Real.arctan ((U * (1/2) + eps) / Delta + U / Delta * (y - 1 / 2))) := by
    unfold friedelMap; ring
  rw [e, abs_mul, abs_neg, abs_of_pos (by positivity : 0 < 1 / Real.pi)]
  refine le_trans (mul_le_mul_of_nonneg_left (abs_arctan_sub_le _ _) (by positivity)) ?_
  have e2 : (U * (1/2) + eps) / Delta + U / Delta * (x - 1 / 2) - ((U * (1/2) + eps) / Delta + U / Delta * (y - 1 / 2))
      = U / Delta * (x - y) := by ring
  rw [e2, abs_mul, abs_div, abs_of_pos hD]
  apply le_of_eq
  field_simp

theorem friedelMap_mem (U eps Delta x : ℝ) : 0 < friedelMap U eps Delta x ∧ friedelMap U eps Delta x < 1 := by
  have hpi := Real.pi_pos
  unfold friedelMap
  set t := Real.arctan ((U * (1/2) + eps) / Delta + U / Delta * (x - 1 / 2))
  have h1 : -(Real.pi / 2) < t := Real.neg_pi_div_two_lt_arctan _
  have h2 : t < Real.pi / 2 := Real.arctan_lt_pi_div_two _
  have h3 : 1 / Real.pi * t < 1 / 2 := by
    rw [one_div_mul_eq_div, div_lt_iff₀ hpi]; linarith
  have h4 : -(1 / 2) < 1 / Real.pi * t := by
    rw [one_div_mul_eq_div, lt_div_iff₀ hpi]; linarith
  constructor <;> linarith

/-- **C78** (soundness).  Whenever the Friedel loop returns, the occupation lies strictly between 0 and 1 and
solves the sum rule to the threshold times `|U|/(π Delta)`. -/
theorem c78_sound (U eps Delta thr : ℝ) (hD : 0 < Delta) (budget : ℕ) (n : ℝ)
    (h : friedel budget U eps Delta thr = .ok n) :
    0 < n ∧ n < 1 ∧ |friedelMap U eps Delta n - n| ≤ |U| / (Real.pi * Delta) * thr := by
  unfold friedel at h
  revert h
  generalize (1 / 2 : ℝ) = n₀
  induction budget generalizing n₀ with
  | zero => intro h; cases h
  | succ k ih =>
    intro h
    rw [friedelLoop] at h
    split at h
    · exact ih _ h
    · rename_i hc
      injection h with e
      subst e
      refine ⟨(friedelMap_mem _ _ _ _).1, (friedelMap_mem _ _ _ _).2, ?_⟩
      have hpi := Real.pi_pos
      refine le_trans (friedelMap_lipschitz _ _ _ _ _ hD) (mul_le_mul_of_nonneg_left ?_ (by positivity))
      rw [abs_sub_comm]
      exact not_lt.mp hc

/-- **C78** (termination).  For an interaction below `π Delta` the Friedel loop returns within `k + 1`
iterations as soon as the `k`-th power of the contraction factor is below the threshold. -/
theorem c78_terminates (U eps Delta thr : ℝ) (hD : 0 < Delta) (k budget : ℕ) (hb : k < budget)
    (hk : (|U| / (Real.pi * Delta)) ^ k ≤ thr) (hU : |U| < Real.pi * Delta) :
    ∃ n, friedel budget U eps Delta thr = .ok n := by
  have hpi := Real.pi_pos
  have hq0 : 0 ≤ |U| / (Real.pi * Delta) := by positivity
  have hq1 : |U| / (Real.pi * Delta) ≤ 1 := by rw [div_le_one (by positivity)]; exact hU.le
  have key : ∀ (j : ℕ) (n₀ : ℝ), (|U| / (Real.pi * Delta)) ^ j * |n₀ - friedelMap U eps Delta n₀| ≤ thr →
      ∃ n, friedelLoop (friedelMap U eps Delta) thr (j + 1) n₀ = .ok n := by
    intro j
    induction j with
    | zero =>
      intro n₀ h
      rw [friedelLoop, if_neg (by simpa using h)]
      exact ⟨_, rfl⟩
    | succ j ih =>
      intro n₀ h
      rw [friedelLoop]
      split
      · apply ih
        have h1 := friedelMap_lipschitz U eps Delta n₀ (friedelMap U eps Delta n₀) hD
        refine le_trans (mul_le_mul_of_nonneg_left h1 (pow_nonneg hq0 j)) ?_
        rw [pow_succ] at h
        linarith
      · exact ⟨_, rfl⟩
  obtain ⟨j, rfl⟩ : ∃ j, budget = j + 1 := ⟨budget - 1, by omega⟩
  refine key j (1/2) ?_
  obtain ⟨h1, h2⟩ := friedelMap_mem U eps Delta (1/2)
  have h3 : |1/2 - friedelMap U eps Delta (1/2)| ≤ 1 := by rw [abs_le]; constructor <;> linarith
  calc _ ≤ (|U| / (Real.pi * Delta)) ^ j * 1 := mul_le_mul_of_nonneg_left h3 (pow_nonneg hq0 j)
    _ ≤ (|U| / (Real.pi * Delta)) ^ k := by
        rw [mul_one]; exact pow_le_pow_of_le_one hq0 hq1 (by omega)
    _ ≤ thr := hk

/-- **C78** (uniqueness): for non-negative interaction the sum rule has at most one solution, so the
Friedel loop and a bisection of the same map agree up to their residuals. -/
theorem c78_agree (U eps Delta : ℝ) (hD : 0 < Delta) (hU : 0 ≤ U) (n m δ : ℝ)
    (hn : |friedelMap U eps Delta n - n| ≤ δ) (hm : |friedelMap U eps Delta m - m| ≤ δ) :
    |n - m| ≤ 2 * δ := by
  have hpi := Real.pi_pos
  have anti : ∀ x y, x ≤ y → friedelMap U eps Delta y ≤ friedelMap U eps Delta x := by
    intro x y h
    unfold friedelMap
    have h1 : U / Delta * (x - 1/2) ≤ U / Delta * (y - 1/2) :=
      mul_le_mul_of_nonneg_left (by linarith) (by positivity)
    have h2 := Real.arctan_strictMono.monotone (add_le_add_right h1 ((U * (1/2) + eps) / Delta))
    have h3 := mul_le_mul_of_nonneg_left h2 (by positivity : 0 ≤ 1 / Real.pi)
    linarith
  rw [abs_le] at hn hm ⊢
  rcases le_total n m with h | h
  · have := anti n m h; constructor <;> linarith
  · have := anti m n h; constructor <;> linarith

/-! Concrete cases meeting the hypotheses. -/

/-- The two-cycle map meets the hypotheses of the bisection theorem with budget 100000 and the default
threshold. -/
example : ∃ n, bracketing 100000 (total cycleMap) (1 / 10 ^ 12) = .ok n ∧ n ∈ Set.Icc (0:ℝ) 1 ∧
    Solves cycleMap (1 / 10 ^ 12) n := by
  refine c60_terminates_lipschitz cycleMap ?_ 1 _ (by norm_num) (by norm_num) ?_ 40 100000 (by norm_num) (by norm_num)
  · intro x hx; exact ⟨le_max_left _ _, max_le (by norm_num) (by linarith [hx.1])⟩
  · intro x _ y _
    have := abs_max_sub_max_le_abs (3/4 - x) (3/4 - y) (0:ℝ)
    unfold cycleMap
    rw [max_comm 0, max_comm 0, one_mul]
    refine le_trans this (le_of_eq ?_)
    rw [abs_sub_comm]; congr 1; ring
example : ∃ n, friedel 100000 1 (1/3) 1 (1 / 10 ^ 12) = .ok n := by
  have hpi := Real.pi_gt_three
  refine c78_terminates 1 (1/3) 1 _ one_pos 30 100000 (by norm_num) ?_ (by rw [abs_one]; linarith)
  have h1 : |(1:ℝ)| / (Real.pi * 1) ≤ 1 / 3 := by
    rw [abs_one, mul_one]; exact one_div_le_one_div_of_le (by norm_num) hpi.le
  refine le_trans (pow_le_pow_left₀ (by positivity) h1 30) (by norm_num)

end Verif.Hartree
