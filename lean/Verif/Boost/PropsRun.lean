import Verif.Boost.Props

/-! C125: complete runs of the Boost driver, and its limits. -/
namespace Verif.Boost

variable {K : Type} [Field K] [LinearOrder K] [IsStrictOrderedRing K]

/-- Bookkeeping of one iteration. -/
theorem iterate_count {c : Cfg K} {rk : Stepper K} {s s1 : St K} (hi : iterate c rk s = .ok (some s1)) :
    s1.count = s.count + 1 ∧ s1.saved.length = s.saved.length := by
  unfold iterate at hi
  simp only [bind, Except.bind, pure, Except.pure, throw, throwThe, MonadExceptOf.throw] at hi
  by_cases h1 : less c.eps s.t c.fin s.dt
  swap
  · rw [if_pos h1] at hi; cases hi
  rw [if_neg (not_not.2 h1)] at hi
  by_cases h2 : (trialLoop (rk s.count) c.maxTrials 0 s.t (firstTrial c s)).2 = c.maxTrials
  · rw [if_pos h2] at hi; cases hi
  rw [if_neg h2] at hi
  by_cases h3 : s.count + 1 < s.saved.length
  · simp only [if_pos h3] at hi
    obtain rfl := Option.some.inj (Except.ok.inj hi)
    exact ⟨rfl, by simp⟩
  · simp only [if_neg h3] at hi; cases hi

/-- The result of the loop is a state that it reaches; it is at the end of the flow or the limit on the number of
steps was met. -/
theorem loop_spec {c : Cfg K} {rk : Stepper K} (n : Nat) (s s' : St K) (h : loop c rk n s = .ok s')
    (hn : c.maxStp < n + s.count ∨ c.maxStp ≤ s.count ∧ 0 < n) :
    Reach c rk s s' ∧ (iterate c rk s' = .ok none ∨ c.maxStp ≤ s'.count) := by
  induction n generalizing s with
  | zero =>
    simp only [loop] at h
    obtain rfl := Except.ok.inj h
    exact ⟨.refl, Or.inr (by omega)⟩
  | succ n ih =>
    unfold loop at h
    rcases hi : iterate c rk s with e | o
    · rw [hi] at h; cases h
    rw [hi] at h
    rcases o with _ | s1
    · obtain rfl := Except.ok.inj h
      exact ⟨.refl, Or.inl hi⟩
    · have hc := (iterate_count hi).1
      have tr : ∀ {x}, Reach c rk s1 x → Reach c rk s x := by
        intro x hx
        induction hx with
        | refl => exact .step .refl hi
        | step _ hit ih' => exact .step ih' hit
      simp only [bind, Except.bind] at h
      by_cases hm : s1.count ≥ c.maxStp
      · rw [if_pos hm] at h
        obtain rfl := Except.ok.inj h
        exact ⟨tr .refl, Or.inr hm⟩
      · rw [if_neg hm] at h
        obtain ⟨a, b⟩ := ih s1 h (by omega)
        exact ⟨tr a, b⟩

/-- **C125** (number of steps). A run that starts below the limit never writes outside of the list of flow
parameters, and makes at most as many steps as allowed. -/
theorem c125_bounded {c : Cfg K} {rk : Stepper K} (n : Nat) (s : St K) (hs : s.count < c.maxStp)
    (hl : s.saved.length = c.maxStp + 1) :
    loop c rk n s ≠ .error .undefined ∧ ∀ s', loop c rk n s = .ok s' → s'.count ≤ c.maxStp := by
  induction n generalizing s with
  | zero => simp only [loop]; exact ⟨by simp, fun s' h => by obtain rfl := Except.ok.inj h; omega⟩
  | succ n ih =>
    unfold loop
    rcases hi : iterate c rk s with e | o
    · refine ⟨?_, fun s' h => by cases h⟩
      intro he
      have he : e = .undefined := by injection he
      subst he
      unfold iterate at hi
      simp only [bind, Except.bind, pure, Except.pure, throw, throwThe, MonadExceptOf.throw] at hi
      rw [hl] at hi
      split_ifs at hi with h1 h2 h3
      · injection hi with hi; cases hi
      · omega
    rcases o with _ | s1
    · exact ⟨by simp [bind, Except.bind, pure, Except.pure], fun s' h => by obtain rfl := Except.ok.inj h; omega⟩
    · have hc := iterate_count hi
      simp only [bind, Except.bind]
      by_cases hm : s1.count ≥ c.maxStp
      · rw [if_pos hm]
        exact ⟨by simp [pure, Except.pure], fun s' h => by obtain rfl := Except.ok.inj h; omega⟩
      · rw [if_neg hm]
        exact ih s1 (by omega) (by omega)

/-- The first step: the given initial step when it leads towards the end of an interval of non-negligible length,
otherwise (always, when the initial step points the other way, as it does for a descending flow with a positive initial
step) the interval divided by the number of steps allowed. -/
theorem c125_first_step_size (tOf : K → K) (d ini fin : K) (maxStp : Nat) :
    (1 / 10 ^ 15 < (fin - ini) * d → firstStep tOf d ini fin maxStp = tOf (ini + d) - tOf ini) ∧
    ((fin - ini) * d ≤ 1 / 10 ^ 15 → firstStep tOf d ini fin maxStp = (tOf fin - tOf ini) / (maxStp : K)) ∧
    (fin ≤ ini → 0 ≤ d → firstStep tOf d ini fin maxStp = (tOf fin - tOf ini) / (maxStp : K)) := by
  refine ⟨fun h => if_pos h, fun h => if_neg (not_lt.mpr h), fun h hd => if_neg (not_lt.mpr ?_)⟩
  have h1 : (fin - ini) * d ≤ 0 := mul_nonpos_of_nonpos_of_nonneg (by linarith) hd
  have h2 : (0 : K) < 1 / 10 ^ 15 := by positivity
  linarith

/-- The first step points towards the end. -/
theorem c125_first_step {tOf : K → K} {d ini fin τ : K} (hτ : τ = 1 ∨ τ = -1) (hd : 0 < d) (hne : ini ≠ fin)
    (hmono : ∀ x y, x < y → (min ini fin ≤ x ∧ y ≤ max fin (ini + d)) → τ * tOf x < τ * tOf y) {maxStp : Nat}
    (hm : 0 < maxStp) : 0 < firstStep tOf d ini fin maxStp * (tOf fin - tOf ini) := by
  have hττ : τ * τ = 1 := by rcases hτ with e | e <;> rw [e] <;> ring
  have h15 : (0 : K) < 1 / 10 ^ 15 := by positivity
  unfold firstStep
  split_ifs with h
  · have hlt : ini < fin := by
      by_contra hc
      push Not at hc
      have : (fin - ini) * d ≤ 0 := mul_nonpos_of_nonpos_of_nonneg (by linarith) hd.le
      linarith
    have h1 := hmono ini fin hlt ⟨min_le_left _ _, le_max_left _ _⟩
    have h2 := hmono ini (ini + d) (by linarith) ⟨min_le_left _ _, le_max_right _ _⟩
    have : (tOf (ini + d) - tOf ini) * (tOf fin - tOf ini)
        = (τ * τ) * ((tOf (ini + d) - tOf ini) * (tOf fin - tOf ini)) := by rw [hττ, one_mul]
    rw [this]
    have : (τ * τ) * ((tOf (ini + d) - tOf ini) * (tOf fin - tOf ini))
        = (τ * tOf (ini + d) - τ * tOf ini) * (τ * tOf fin - τ * tOf ini) := by ring
    rw [this]
    exact mul_pos (by linarith) (by linarith)
  · have hM : (0 : K) < maxStp := by exact_mod_cast hm
    have hx : tOf fin - tOf ini ≠ 0 := by
      intro h0
      rcases lt_or_gt_of_ne hne with hlt | hlt
      · have := hmono ini fin hlt ⟨min_le_left _ _, le_max_left _ _⟩
        have h1 : tOf fin = tOf ini := by linarith
        rw [h1] at this; exact lt_irrefl _ this
      · have := hmono fin ini hlt ⟨min_le_right _ _, by
          have : ini ≤ ini + d := by linarith
          exact this.trans (le_max_right _ _)⟩
        have h1 : tOf fin = tOf ini := by linarith
        rw [h1] at this; exact lt_irrefl _ this
    rw [div_mul_eq_mul_div]
    exact div_pos (mul_self_pos.2 hx) hM

/-- **C125** for a complete run: it ends at the end of the flow or after the maximal number of steps, never
outside of the interval. -/
theorem c125_run {tOf lamOf : K → K} {eps d ini fin : K} {cps : List K} {maxSteps maxTrials : Nat} {rk : Stepper K}
    (hrk : Contract rk) {σ τ τ' : K}
    (hD : Directed ⟨tOf, lamOf, tOf fin, cps, maxTrials, maxSteps + cps.length, eps⟩ σ (tOf ini))
    (hP : Param ⟨tOf, lamOf, tOf fin, cps, maxTrials, maxSteps + cps.length, eps⟩ σ τ (tOf ini))
    (hτ : τ' = 1 ∨ τ' = -1) (hd : 0 < d) (hne : ini ≠ fin)
    (hmono : ∀ x y, x < y → (min ini fin ≤ x ∧ y ≤ max fin (ini + d)) → τ' * tOf x < τ' * tOf y)
    (hm : 0 < maxSteps + cps.length) {s : St K}
    (h : solve tOf lamOf eps d ini fin cps maxSteps maxTrials 0 rk = .ok s) :
    (σ * tOf ini ≤ σ * s.t ∧ σ * s.t ≤ σ * tOf fin + eps) ∧ s.saved[0]? = some ini ∧ s.count ≤ maxSteps + cps.length ∧
      (|tOf fin - s.t| ≤ eps ∨ s.count = maxSteps + cps.length) := by
  set c : Cfg K := ⟨tOf, lamOf, tOf fin, cps, maxTrials, maxSteps + cps.length, eps⟩ with hc
  have hfirst := c125_first_step hτ hd hne hmono hm
  set s0 := start tOf d ini fin 0 (maxSteps + cps.length) with hs0
  have hdir : 0 < σ * s0.dt := by
    have ha : σ * tOf ini ≤ σ * tOf fin := hD.ahead
    show 0 < σ * firstStep tOf d ini fin (maxSteps + cps.length)
    have hnn : 0 ≤ σ * (tOf fin - tOf ini) := by rw [mul_sub]; linarith
    have hσσ : σ * σ = 1 := by rcases hD.sign with e | e <;> rw [e] <;> ring
    have : 0 < (σ * firstStep tOf d ini fin (maxSteps + cps.length)) * (σ * (tOf fin - tOf ini)) := by
      have e : (σ * firstStep tOf d ini fin (maxSteps + cps.length)) * (σ * (tOf fin - tOf ini))
        = (σ * σ) * (firstStep tOf d ini fin (maxSteps + cps.length) * (tOf fin - tOf ini)) := by ring
      rw [e, hσσ, one_mul]; exact hfirst
    by_contra hcon
    push Not at hcon
    have := mul_nonpos_of_nonpos_of_nonneg hcon hnn
    linarith
  have hI : Inv c σ (tOf ini) s0 := by
    refine ⟨⟨le_rfl, ?_⟩, hdir, by intro h; cases h⟩
    have h1 : σ * tOf ini ≤ σ * tOf fin := hD.ahead
    have h2 : 0 ≤ eps := hD.eps
    show σ * tOf ini ≤ σ * tOf fin + eps
    linarith
  obtain ⟨hr, hend⟩ := loop_spec _ s0 s h (by
    left; show maxSteps + cps.length < maxSteps + cps.length + 1 + s0.count; omega)
  obtain ⟨b1, -, -, -, b5, -⟩ := c125_interval hrk hD hP hI hr
  have hcount := (c125_bounded (c := c) (rk := rk) (maxSteps + cps.length + 1) s0 hm (by simp [hs0, start, hc])).2 s h
  refine ⟨b1, ?_, hcount, ?_⟩
  · rw [b5 0 (Nat.zero_le _)]; simp [hs0, start]
  · rcases hend with e | e
    · left; exact c125_end hrk hD hP hI hr e
    · right; exact le_antisymm hcount e

/-- **C125** is false when only one trial is allowed: the run is aborted as unsuccessful although the trial
succeeded. More generally a success in the last allowed trial counts as failure. -/
theorem c125_last_trial_refuted {c : Cfg K} {rk : Stepper K} {s : St K} (h1 : c.maxTrials = 1)
    (hrun : less c.eps s.t c.fin s.dt) : iterate c rk s = .error .exception := by
  unfold iterate
  rw [if_neg (not_not.2 hrun), h1]
  simp [trialLoop, bind, Except.bind, throw, throwThe, MonadExceptOf.throw]

/-- The same with two allowed trials, the first rejected and the second accepted. -/
theorem c125_second_trial_refuted {c : Cfg K} {rk : Stepper K} {s : St K} (h1 : c.maxTrials = 2)
    (hrun : less c.eps s.t c.fin s.dt) (hrej : (rk s.count 0 s.t (firstTrial c s)).ok = false) :
    iterate c rk s = .error .exception := by
  unfold iterate
  rw [if_neg (not_not.2 hrun), h1]
  simp [trialLoop, hrej, bind, Except.bind, throw, throwThe, MonadExceptOf.throw]

/-- A stepper that rejects every trial and halves the step. -/
def rejecting : Stepper ℚ := fun _ _ t dt => ⟨false, t, dt / 2⟩

theorem rejecting_contract : Contract rejecting := by
  constructor
  · intro i k t dt _ h; cases h
  · intro i k t dt h0 _
    refine ⟨rfl, ?_, ?_⟩
    · show 0 < dt / 2 * dt
      have := mul_self_pos.2 h0
      linarith
    · show |dt / 2| ≤ |dt|
      rw [abs_div, abs_of_pos (by norm_num : (0 : ℚ) < 2)]
      have := abs_nonneg dt
      linarith

/-- A stepper that accepts every trial and keeps the step. -/
def accepting : Stepper ℚ := fun _ _ t dt => ⟨true, t + dt, dt⟩

theorem accepting_contract : Contract accepting := by
  constructor
  · intro i k t dt h0 _
    exact ⟨rfl, mul_self_pos.2 h0⟩
  · intro i k t dt _ h; cases h

/-- **C125** is false without allowed trials: a rejected step is recorded as a step of the flow that did not
move; the run then uses up its steps at the start. -/
theorem c125_no_trials_refuted :
    ∃ s, solve id id 0 (1/2) 1 0 [] 3 0 0 rejecting = .ok s ∧ s.t = 1 ∧ s.count = 3 ∧ s.saved = [1, 1, 1, 1] := by
  refine ⟨⟨1, -1/24, false, 0, 3, [1, 1, 1, 1]⟩, ?_, rfl, rfl, rfl⟩
  simp [solve, loop, iterate, start, firstStep, less, trialLoop, rejecting, firstTrial, crossing, clipped,
    proposed, bind, Except.bind, pure, Except.pure]
  norm_num

/-- A run that starts at or beyond the limit on the number of steps and has something to do writes outside of
the list. -/
theorem c125_late_start_refuted {c : Cfg K} {rk : Stepper K} {s : St K} (hs : c.maxStp ≤ s.count)
    (hl : s.saved.length = c.maxStp + 1) (hrun : less c.eps s.t c.fin s.dt)
    (hok : (trialLoop (rk s.count) c.maxTrials 0 s.t (firstTrial c s)).2 ≠ c.maxTrials) (n : Nat) :
    loop c rk (n + 1) s = .error .undefined := by
  have : iterate c rk s = .error .undefined := by
    unfold iterate
    rw [if_neg (not_not.2 hrun)]
    simp only [bind, Except.bind, throw, throwThe, MonadExceptOf.throw]
    rw [if_neg hok]
    simp only [if_neg (show ¬ s.count + 1 < s.saved.length by omega)]
  unfold loop
  rw [this]; rfl

/-- The hypotheses of `c125_run` are met: linear parametrisation, descending flow from 1 to 0 in steps of a
third. -/
example : ∃ s, solve id id 0 (1/2) 1 0 [] 3 5 0 accepting = .ok s ∧ s.t = 0 ∧ s.saved = [1, 2/3, 1/3, 0] := by
  refine ⟨⟨0, -1/3, false, 0, 3, [1, 2/3, 1/3, 0]⟩, ?_, rfl, rfl⟩
  simp [solve, loop, iterate, start, firstStep, less, trialLoop, accepting, firstTrial, crossing, clipped,
    proposed, bind, Except.bind, pure, Except.pure]
  norm_num

example : Directed (⟨id, id, 0, [], 5, 3, 0⟩ : Cfg ℚ) (-1) 1 ∧ Param (⟨id, id, 0, [], 5, 3, 0⟩ : Cfg ℚ) (-1) 1 1 := by
  refine ⟨⟨Or.inr rfl, le_rfl, by norm_num⟩, ⟨Or.inl rfl, fun _ _ => rfl, ?_, by simp⟩⟩
  intro s t _ _ h
  simpa using h

end Verif.Boost
