import Verif.StepControl.Model

/-! C13, C14: termination and guarantees of the step-size control. -/
namespace Verif.StepControl

open Classical

theorem sgn_pos {x : ℝ} (h : 0 < x) : sgn x = 1 := by
  simp [sgn, h.le, not_le.mpr h]

theorem sgn_neg {x : ℝ} (h : x < 0) : sgn x = -1 := by
  simp [sgn, h.le, not_le.mpr h]

theorem sgn_zero : sgn 0 = 0 := by simp [sgn]

theorem sgn_mul_self_pos {x c : ℝ} (hx : x ≠ 0) (hc : 0 < c) :
    |sgn x * c| = c ∧ 0 < x * (sgn x * c) := by
  rcases lt_or_gt_of_ne hx with h | h
  · rw [sgn_neg h]; constructor
    · simp [abs_of_pos hc]
    · nlinarith
  · rw [sgn_pos h]; constructor
    · simp [abs_of_pos hc]
    · nlinarith

/-- One resizing after a numeric error estimate above one: the direction stays, and the new step is at least
the minimal one, at least a tenth of the old one, and at most the larger of 0.8 times the old and the
minimal one. -/
theorem resize_spec {s : Settings} (hmin : 0 < s.minStep) {t : ℝ} (ht : t ≠ 0) {e : Err}
    (hnan : e ≠ .nan) (he : ¬ e.atMostOne) :
    ∃ t', resize s (some t) e = some t' ∧ 0 < t * t' ∧ s.minStep ≤ |t'| ∧ 1/10 * |t| ≤ |t'| ∧
      |t'| ≤ max (4/5 * |t|) s.minStep := by
  have key : ∀ p : ℝ, 0 ≤ p → p ≤ 1 →
      ∃ t', some (sgn t * max (max |4/5 * t * p| (1/10 * |t|)) s.minStep) = some t' ∧
        0 < t * t' ∧ s.minStep ≤ |t'| ∧ 1/10 * |t| ≤ |t'| ∧ |t'| ≤ max (4/5 * |t|) s.minStep := by
    intro p hp0 hp1
    have hM : 0 < max (max |4/5 * t * p| (1/10 * |t|)) s.minStep := lt_of_lt_of_le hmin (le_max_right _ _)
    obtain ⟨h1, h2⟩ := sgn_mul_self_pos ht hM
    refine ⟨_, rfl, h2, ?_, ?_, ?_⟩
    · rw [h1]; exact le_max_right _ _
    · rw [h1]; exact le_trans (le_max_right _ _) (le_max_left _ _)
    · rw [h1]
      have ha : |4/5 * t * p| ≤ 4/5 * |t| := by
        rw [abs_mul, abs_mul, abs_of_nonneg hp0, abs_of_pos (by norm_num : (0:ℝ) < 4/5)]
        have := abs_nonneg t
        nlinarith
      have hb : 1/10 * |t| ≤ 4/5 * |t| := by have := abs_nonneg t; nlinarith
      exact max_le (le_trans (max_le ha hb) (le_max_left _ _)) (le_max_right _ _)
  cases e with
  | nan => exact absurd rfl hnan
  | inf => exact key 0 le_rfl zero_le_one
  | num e =>
    have he' : 1 < e := not_le.mp he
    exact key _ (Real.rpow_nonneg (by linarith) _)
      (Real.rpow_le_one_of_one_le_of_nonpos he'.le (by norm_num))

/-- What an accepted exit guarantees relative to the trial step `t0`. -/
structure Good (s : Settings) (err : Nat → Option ℝ → Err) (t0 : ℝ) (t : Option ℝ) (e : Err)
    (rejected : Bool) (n : Nat) : Prop where
  /-- a real step in the direction of the trial step, not longer than it -/
  step : ∃ x, t = some x ∧ 0 < t0 * x ∧ |x| ≤ |t0| ∧ (rejected = true → s.minStep ≤ |x|)
  /-- the error estimate is the one of this step and is at most one, or the step is minimal -/
  error : ∃ m, n = m + 1 ∧ e = err m t ∧ (e.atMostOne ∨ stepMinimal s t)

/-- Invariant of the loop and bound on the number of attempts. -/
theorem loop_spec {s : Settings} (hmin : 0 < s.minStep) {err : Nat → Option ℝ → Err}
    (hnum : ∀ n t, err n (some t) ≠ .nan) {t0 : ℝ} :
    ∀ (k n : Nat) (t : ℝ) (rej : Bool), 0 < t0 * t → |t| ≤ |t0| → (rej = true → s.minStep ≤ |t|) →
      |t| ≤ max ((4/5 : ℝ)^n * |t0|) s.minStep → (4/5 : ℝ)^(n + k) * |t0| ≤ s.minStep →
      ∃ ex, loop s err 0 (k + 1) n (some t) rej = some ex ∧
        (∀ t' e rej' m, ex = .accept t' e rej' m → Good s err t0 t' e rej' m ∧ m ≤ n + k + 1) ∧
        (ex = .underflow → ∃ x, s.absorbed x ∧ s.minStep ≤ |x|) := by
  intro k
  induction k with
  | zero =>
    intro n t rej hdir hle hrej hb hk
    have hm : |t| ≤ s.minStep := le_trans hb (max_le (by simpa using hk) le_rfl)
    refine ⟨.accept (some t) (err n (some t)) rej (n + 1), ?_, ?_, by intro h; cases h⟩
    · simp [loop, stepMinimal, hm]
    · intro t' e rej' m h
      cases h
      exact ⟨⟨⟨t, rfl, hdir, hle, hrej⟩, ⟨n, rfl, rfl, Or.inr hm⟩⟩, by omega⟩
  | succ k ih =>
    intro n t rej hdir hle hrej hb hk
    have ht : t ≠ 0 := by rintro rfl; simp at hdir
    by_cases hacc : (err n (some t)).atMostOne ∨ stepMinimal s (some t)
    · refine ⟨.accept (some t) (err n (some t)) rej (n + 1), ?_, ?_, by intro h; cases h⟩
      · rw [loop]; simp only [hacc, if_true]
      · intro t' e rej' m h
        cases h
        exact ⟨⟨⟨t, rfl, hdir, hle, hrej⟩, ⟨n, rfl, rfl, hacc⟩⟩, by omega⟩
    · have hacc' := hacc
      rw [not_or] at hacc'
      have hgt : s.minStep < |t| := not_le.mp hacc'.2
      obtain ⟨t', h1, h2, h3, h4, h5⟩ := resize_spec hmin ht (hnum n t) hacc'.1
      by_cases habs : s.absorbed t'
      · refine ⟨.underflow, ?_, (by intro _ _ _ _ h; cases h), fun _ => ⟨t', habs, h3⟩⟩
        rw [loop]; simp [hacc, h1, stepAbsorbed, habs]
      · have hstep : loop s err 0 (k + 1 + 1) n (some t) rej
            = loop s err 0 (k + 1) (n + 1) (some t') true := by
          rw [loop]; simp [hacc, h1, stepAbsorbed, habs]
        have hdir' : 0 < t0 * t' := by
          have : 0 < (t0 * t') * (t * t) := by
            have := mul_pos hdir h2; nlinarith
          exact (pos_iff_pos_of_mul_pos this).mpr (mul_self_pos.mpr ht)
        have hle' : |t'| ≤ |t| := by
          refine le_trans h5 (max_le ?_ hgt.le)
          have := abs_nonneg t; nlinarith
        have hb' : |t'| ≤ max ((4/5 : ℝ)^(n+1) * |t0|) s.minStep := by
          refine le_trans h5 (max_le ?_ (le_max_right _ _))
          rcases le_max_iff.mp hb with hb | hb
          · refine le_trans ?_ (le_max_left _ _)
            rw [pow_succ]; nlinarith
          · exact absurd hb (not_le.mpr hgt)
        obtain ⟨ex, e1, e2, e3⟩ := ih (n + 1) t' true hdir' (le_trans hle' hle) (fun _ => h3) hb'
          (by rw [show n + 1 + k = n + (k + 1) by omega]; exact hk)
        refine ⟨ex, by rw [hstep]; exact e1, ?_, e3⟩
        intro a b c d h
        obtain ⟨g, hm⟩ := e2 a b c d h
        exact ⟨g, by omega⟩

/-- C13: whatever (numeric or infinite) error estimates occur, the step control terminates, after at most
`k + 1` attempts where `0.8^k |t0| ≤ min_t_step`.  It accepts a step in the direction of the trial step and
not longer than it, whose error ratio is at most one or whose size is minimal; or it reports an underflow,
which happens only if the machine absorbs a step of at least the minimal size. -/
theorem c13_terminates {s : Settings} (hmin : 0 < s.minStep) {err : Nat → Option ℝ → Err}
    (hnum : ∀ n t, err n (some t) ≠ .nan) {t0 : ℝ} (ht0 : t0 ≠ 0) (k : Nat)
    (hk : (4/5 : ℝ)^k * |t0| ≤ s.minStep) :
    ∃ ex, run s err (k + 1) t0 = some ex ∧
      (∀ t e rej n, ex = .accept t e rej n → Good s err t0 t e rej n ∧ n ≤ k + 1) ∧
      (ex = .underflow → ∃ x, s.absorbed x ∧ s.minStep ≤ |x|) := by
  have := loop_spec hmin hnum (t0 := t0) k 0 t0 false (mul_self_pos.mpr ht0) le_rfl (by simp)
    (by simp) (by simpa using hk)
  simpa [run] using this

/-- C13: such a number of attempts always exists. -/
theorem c13_attempt_bound_exists {s : Settings} (hmin : 0 < s.minStep) (t0 : ℝ) :
    ∃ k : Nat, (4/5 : ℝ)^k * |t0| ≤ s.minStep := by
  rcases (abs_nonneg t0).eq_or_lt with h | h
  · exact ⟨0, by rw [← h]; simpa using hmin.le⟩
  · obtain ⟨k, hk⟩ := exists_pow_lt_of_lt_one (div_pos hmin h) (by norm_num : (4/5 : ℝ) < 1)
    exact ⟨k, ((lt_div_iff₀ h).mp hk).le⟩

/-- With the solver's settings (`min_t_step = 1e-5`) a trial step of size at most 10 needs at most 63
attempts. -/
example : (4/5 : ℝ)^62 * |(-10 : ℝ)| ≤ 1/100000 := by norm_num

/-- C13: a step that is accepted at the first attempt is the trial step itself. -/
theorem c13_first_attempt {s : Settings} {err : Nat → Option ℝ → Err} {t0 : ℝ} (fuel : Nat)
    (h : (err 0 (some t0)).atMostOne) :
    run s err (fuel + 1) t0 = some (.accept (some t0) (err 0 (some t0)) false 1) := by
  simp [run, loop, h]

/-- For an error above the growth threshold the growth factor is at most two. -/
theorem growth_factor {e : ℝ} (he : (2 / (4/5) : ℝ) ^ (-(1/5) : ℝ) < e) :
    0 < e ^ (-(1/5) : ℝ) ∧ 4/5 * e ^ (-(1/5) : ℝ) ≤ 2 := by
  have h0 : (0:ℝ) < (2 / (4/5) : ℝ) ^ (-(1/5) : ℝ) := Real.rpow_pos_of_pos (by norm_num) _
  have hp : 0 < e := h0.trans he
  refine ⟨Real.rpow_pos_of_pos hp _, ?_⟩
  have h1 : e ^ (-(1/5) : ℝ) ≤ ((2 / (4/5) : ℝ) ^ (-(1/5) : ℝ)) ^ (-(1/5) : ℝ) :=
    Real.rpow_le_rpow_of_nonpos h0 he.le (by norm_num)
  rw [← Real.rpow_mul (by norm_num)] at h1
  have h2 : (2 / (4/5) : ℝ) ^ ((-(1/5) : ℝ) * (-(1/5) : ℝ)) ≤ (2 / (4/5) : ℝ) ^ (1 : ℝ) :=
    Real.rpow_le_rpow_of_exponent_le (by norm_num) (by norm_num)
  rw [Real.rpow_one] at h2
  linarith

theorem mul_sgn_nonneg (x : ℝ) : sgn x * x = |x| := by
  rcases lt_trichotomy x 0 with h | h | h
  · rw [sgn_neg h, abs_of_neg h]; ring
  · simp [h]
  · rw [sgn_pos h, abs_of_pos h]; ring

/-- The proposal before clipping has the direction of the step and at most doubles it. -/
theorem proposal_spec {t : ℝ} (ht : t ≠ 0) {e : Err} (he : e ≠ .inf) (rej : Bool) :
    0 < t * proposal t e rej ∧ |proposal t e rej| ≤ 2 * |t| ∧ (rej = true → |proposal t e rej| ≤ |t|) := by
  have hpos : 0 < |t| := abs_pos.mpr ht
  have grown : ∃ c : ℝ, 0 < c ∧ c ≤ 2 ∧
      (if e.exceeds ((2 / (4/5)) ^ (-(1/5) : ℝ)) then 4/5 * t * (e.powNeg (-(1/5))).getD 0 else 2 * t)
        = c * t := by
    split_ifs with h
    · cases e with
      | nan => exact absurd h (by simp [Err.exceeds])
      | inf => exact absurd rfl he
      | num e =>
        obtain ⟨h1, h2⟩ := growth_factor h
        exact ⟨4/5 * e ^ (-(1/5) : ℝ), by positivity, h2, by simp [Err.powNeg]; ring⟩
    · exact ⟨2, by norm_num, le_rfl, rfl⟩
  obtain ⟨c, hc0, hc2, hc⟩ := grown
  have habs : |c * t| = c * |t| := by rw [abs_mul, abs_of_pos hc0]
  cases rej with
  | false =>
    simp only [proposal, hc, Bool.false_eq_true, if_false, habs, false_implies, and_true]
    exact ⟨by have := mul_self_pos.mpr ht; nlinarith, by nlinarith⟩
  | true =>
    simp only [proposal, hc, if_true, habs, true_implies]
    have hM : 0 < min (c * |t|) |t| := lt_min (by positivity) hpos
    obtain ⟨h1, h2⟩ := sgn_mul_self_pos ht hM
    rw [h1]
    exact ⟨h2, le_trans (min_le_right _ _) (by linarith), min_le_right _ _⟩

/-- C13: the proposed next step keeps the direction, lies between the minimal and the maximal step, is at
most twice the taken step (or minimal), and after a rejection at most as long as the taken step (or
minimal). -/
theorem c13_next_step {s : Settings} (hmin : 0 < s.minStep) (hmax : s.minStep ≤ s.maxStep)
    {t : ℝ} (ht : t ≠ 0) {e : Err} (he : e ≠ .inf) (rej : Bool) :
    0 < t * nextStep s t e rej ∧ s.minStep ≤ |nextStep s t e rej| ∧ |nextStep s t e rej| ≤ s.maxStep ∧
      |nextStep s t e rej| ≤ max s.minStep (2 * |t|) ∧
      (rej = true → |nextStep s t e rej| ≤ max s.minStep |t|) := by
  obtain ⟨h1, h2, h3⟩ := proposal_spec ht he rej
  have hp : proposal t e rej ≠ 0 := by intro h; rw [h] at h1; simp at h1
  have hM : 0 < min (max s.minStep |proposal t e rej|) s.maxStep :=
    lt_min (lt_max_of_lt_left hmin) (lt_of_lt_of_le hmin hmax)
  obtain ⟨a, b⟩ := sgn_mul_self_pos hp hM
  unfold nextStep
  simp only
  rw [a]
  refine ⟨?_, le_min (le_max_left _ _) hmax, min_le_right _ _,
    le_trans (min_le_left _ _) (max_le_max le_rfl h2),
    fun h => le_trans (min_le_left _ _) (max_le_max le_rfl (h3 h))⟩
  have : 0 < (t * (sgn (proposal t e rej) * min (max s.minStep |proposal t e rej|) s.maxStep))
      * (proposal t e rej * proposal t e rej) := by
    have := mul_pos h1 b; nlinarith
  exact (pos_iff_pos_of_mul_pos this).mpr (mul_self_pos.mpr hp)

/-- The solver's settings satisfy the hypotheses. -/
example : (0:ℝ) < 1/100000 ∧ (1/100000 : ℝ) ≤ 10 ∧ (-3/10 : ℝ) ≠ 0 := by norm_num

/-- C13 fails for an infinite error estimate (an overflow, or a vanishing error scale): a minimal step is
accepted with it, and the proposed next step is zero, below the minimal step; a zero step is then accepted
again and proposes zero again, whatever the error, so the flow no longer moves. -/
theorem c13_infinite_error_refuted (s : Settings) {t : ℝ} (ht : |t| ≤ s.minStep)
    (err : Nat → Option ℝ → Err) (hinf : err 0 (some t) = .inf) (fuel : Nat) :
    run s err (fuel + 1) t = some (.accept (some t) .inf false 1) ∧ nextStep s t .inf false = 0 ∧
      ∀ (err' : Nat → Option ℝ → Err) fuel',
        run s err' (fuel' + 1) 0 = some (.accept (some 0) (err' 0 (some 0)) false 1) ∧
        ∀ e, nextStep s 0 e false = 0 := by
  have hm : 0 ≤ s.minStep := le_trans (abs_nonneg _) ht
  refine ⟨by simp [run, loop, stepMinimal, ht, hinf], ?_, fun err' fuel' => ⟨?_, fun e => ?_⟩⟩
  · simp [nextStep, proposal, Err.exceeds, Err.powNeg, sgn_zero]
  · simp [run, loop, stepMinimal, hm]
  · simp [nextStep, proposal, sgn_zero]

/-- C14: the configured maximal number of resizings has no effect whatever: the loop tests a counter that
is never changed from zero. -/
theorem c14_limit_has_no_effect (s : Settings) (err : Nat → Option ℝ → Err) (m : Nat) (fuel : Nat) (t : ℝ) :
    run s err fuel t = run { s with maxAttempts := m } err fuel t := by
  have key : ∀ fuel n t r, loop s err 0 fuel n t r = loop { s with maxAttempts := m } err 0 fuel n t r := by
    intro fuel
    induction fuel with
    | zero => intros; rfl
    | succ fuel ih =>
      intro n t r
      have hr : resize { s with maxAttempts := m } t (err n t) = resize s t (err n t) := by
        unfold resize; rfl
      have ha : ∀ t, stepAbsorbed { s with maxAttempts := m } t = stepAbsorbed s t := by
        intro t; cases t <;> rfl
      have hmn : stepMinimal { s with maxAttempts := m } t = stepMinimal s t := by cases t <;> rfl
      simp only [loop, Nat.not_lt_zero, gt_iff_lt, if_false, hr, ha, hmn]
      split_ifs
      · rfl
      · rfl
      · exact ih _ _ _
  exact key fuel 0 (some t) false

/-- C14 is false: if the first error estimate is not a number (and a step that is not a number gives an
error estimate that is not a number), the loop never stops, for every trial step above the minimal one and
every configured maximal number of resizings. -/
theorem c14_nan_refuted (s : Settings) {t : ℝ} (ht : s.minStep < |t|) (err : Nat → Option ℝ → Err)
    (h0 : err 0 (some t) = .nan) (hnan : ∀ n, err n none = .nan) :
    ∀ fuel, run s err fuel t = none := by
  have key : ∀ fuel n r, loop s err 0 fuel n none r = none := by
    intro fuel
    induction fuel with
    | zero => intros; rfl
    | succ fuel ih =>
      intro n r
      simp [loop, hnan, Err.atMostOne, stepMinimal, resize, stepAbsorbed, ih]
  intro fuel
  cases fuel with
  | zero => rfl
  | succ fuel =>
    simp [run, loop, h0, Err.atMostOne, stepMinimal, not_le.mpr ht, resize, Err.powNeg, stepAbsorbed, key]

/-- The hypotheses of `c14_nan_refuted` are met, e.g. when every estimate is not a number. -/
example : ∃ (s : Settings) (t : ℝ) (err : Nat → Option ℝ → Err),
    s.minStep < |t| ∧ err 0 (some t) = .nan ∧ ∀ n, err n none = .nan :=
  ⟨⟨1/100000, 10, 1000, fun _ => False⟩, 1, fun _ _ => .nan, by norm_num, rfl, fun _ => rfl⟩

/-- C14, what holds: with estimates that are numbers (or infinite) the loop stops, within a number of
attempts that depends on the trial step and the minimal step only. -/
theorem c14_numbers_partial {s : Settings} (hmin : 0 < s.minStep) {t0 : ℝ} (ht0 : t0 ≠ 0) :
    ∃ k, ∀ err : Nat → Option ℝ → Err, (∀ n t, err n (some t) ≠ .nan) → ∃ ex, run s err k t0 = some ex := by
  obtain ⟨k, hk⟩ := c13_attempt_bound_exists hmin t0
  refine ⟨k + 1, fun err hnum => ?_⟩
  obtain ⟨ex, h, _⟩ := c13_terminates hmin hnum ht0 k hk
  exact ⟨ex, h⟩

/-- The growth rule of an error-controlled step: `SAFETY e^PGROW`, but at most `MAXGROW`. -/
noncomputable def standardGrowth (e : ℝ) : ℝ := min 2 (4/5 * e ^ (-(1/5) : ℝ))

/-- C72 is false: at error ratio 4/5 the step is doubled, although the error-controlled growth factor is
below one.  (The threshold for maximal growth is `(MAXGROW/SAFETY)^PGROW` instead of
`(MAXGROW/SAFETY)^(1/PGROW)`.) -/
theorem c72_growth_refuted {t : ℝ} :
    proposal t (.num (4/5)) false = 2 * t ∧ standardGrowth (4/5) < 1 := by
  have h1 : ¬ ((2 / (4/5) : ℝ) ^ (-(1/5) : ℝ) < 4/5) := by
    rw [not_lt]
    have hb : (2 / (4/5) : ℝ) ^ (-(1/5) : ℝ) = ((2/5 : ℝ)) ^ ((1/5) : ℝ) := by
      rw [show (2 / (4/5) : ℝ) = (2/5 : ℝ)⁻¹ by norm_num, Real.inv_rpow (by norm_num),
        Real.rpow_neg (by norm_num), inv_inv]
    rw [hb, show (4/5 : ℝ) = ((4/5 : ℝ) ^ (5:ℝ)) ^ ((1/5):ℝ) by
      rw [← Real.rpow_mul (by norm_num)]; norm_num]
    exact Real.rpow_le_rpow (by positivity) (by
      rw [show (5:ℝ) = ((5:ℕ):ℝ) by norm_num, Real.rpow_natCast]; norm_num) (by norm_num)
  refine ⟨by simp only [proposal, Err.exceeds, h1, if_false, Bool.false_eq_true], ?_⟩
  have h2 : (4/5 : ℝ) ^ (-(1/5) : ℝ) < 5/4 := by
    rw [show (4/5 : ℝ) = (5/4 : ℝ)⁻¹ by norm_num, Real.inv_rpow (by norm_num), Real.rpow_neg (by norm_num),
      inv_inv]
    calc (5/4 : ℝ) ^ ((1/5) : ℝ) < (5/4 : ℝ) ^ (1 : ℝ) :=
          Real.rpow_lt_rpow_of_exponent_lt (by norm_num) (by norm_num)
      _ = 5/4 := Real.rpow_one _
  unfold standardGrowth
  exact lt_of_le_of_lt (min_le_right _ _) (by linarith)

/-- C72, what holds: above the threshold the standard rule is used, and the growth never exceeds the
maximal one. -/
theorem c72_growth_partial {t e : ℝ} (he : (2 / (4/5) : ℝ) ^ (-(1/5) : ℝ) < e) :
    proposal t (.num e) false = standardGrowth e * t := by
  have h := (growth_factor he).2
  simp only [proposal, Err.exceeds, he, if_true, Err.powNeg, Option.getD_some, standardGrowth,
    min_eq_right h, Bool.false_eq_true, if_false]
  ring

/-- C72, what holds: for errors below `(SAFETY/MAXGROW)^5` both rules double the step. -/
theorem c72_small_error_partial {t e : ℝ} (h0 : 0 < e) (he : e ≤ (2/5 : ℝ)^5) :
    proposal t (.num e) false = standardGrowth e * t := by
  have hlt : ¬ ((2 / (4/5) : ℝ) ^ (-(1/5) : ℝ) < e) := by
    rw [not_lt]
    have hb : (2 / (4/5) : ℝ) ^ (-(1/5) : ℝ) = ((2/5 : ℝ)) ^ ((1/5) : ℝ) := by
      rw [show (2 / (4/5) : ℝ) = (2/5 : ℝ)⁻¹ by norm_num, Real.inv_rpow (by norm_num),
        Real.rpow_neg (by norm_num), inv_inv]
    rw [hb]
    refine he.trans ?_
    rw [← Real.rpow_natCast]
    exact Real.rpow_le_rpow_of_exponent_ge (by norm_num) (by norm_num) (by norm_num)
  have hge : (5/2 : ℝ) ≤ e ^ (-(1/5) : ℝ) := by
    have := Real.rpow_le_rpow_of_nonpos h0 he (by norm_num : (-(1/5) : ℝ) ≤ 0)
    rw [← Real.rpow_natCast, ← Real.rpow_mul (by norm_num)] at this
    have h2 : (2/5 : ℝ) ^ (((5:ℕ):ℝ) * (-(1/5))) = 5/2 := by
      rw [show (((5:ℕ):ℝ) * (-(1/5))) = -1 by norm_num, Real.rpow_neg_one]; norm_num
    linarith
  simp only [proposal, Err.exceeds, hlt, if_false, Bool.false_eq_true, standardGrowth]
  rw [min_eq_left (by linarith)]

end Verif.StepControl
