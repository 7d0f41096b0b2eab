import Verif.Boost.PropsRun

/-! C126: checkpoints, step sizes and resumption in the Boost driver. -/
namespace Verif.Boost

variable {K : Type} [Field K] [LinearOrder K] [IsStrictOrderedRing K]

theorem box_between {c : Cfg K} {σ ini s t x : K} (hs : InBox c σ ini s) (ht : InBox c σ ini t)
    (h1 : σ * s ≤ σ * x) (h2 : σ * x ≤ σ * t) : InBox c σ ini x :=
  ⟨hs.1.trans h1, h2.trans ht.2⟩

/-- Along the run the flow parameter moves in the direction `τ * σ`. -/
theorem lam_mono {c : Cfg K} {σ τ ini : K} (hD : Directed c σ ini) (hP : Param c σ τ ini) {s t : K}
    (hs : InBox c σ ini s) (ht : InBox c σ ini t) (h : σ * s ≤ σ * t) :
    τ * σ * c.lamOf s ≤ τ * σ * c.lamOf t := by
  rcases h.eq_or_lt with e | hlt
  · have : s = t := by rcases hD.sign with r | r <;> subst r <;> linarith
    rw [this]
  · rcases hD.sign with r | r
    · subst r
      have := hP.mono s t hs ht (by linarith)
      linarith
    · subst r
      have := hP.mono t s ht hs (by linarith)
      linarith

/-- Crossing in terms of an ordered flow parameter. -/
theorem crosses_iff {ρ x y cp : K} (hρ : ρ = 1 ∨ ρ = -1) :
    Crosses x y cp ↔ (ρ * x - ρ * cp) * (ρ * y - ρ * cp) < -(1 / 10 ^ 14) := by
  unfold Crosses
  rcases hρ with e | e <;> subst e
  · simp only [one_mul]
  · have : (-1 * x - -1 * cp) * (-1 * y - -1 * cp) = (x - cp) * (y - cp) := by ring
    rw [this]

/-- **C126** (checkpoints listed in the direction of the flow). No iteration passes a checkpoint by more than the
tolerance. -/
theorem c126_no_skip_partial {c : Cfg K} {rk : Stepper K} (hrk : Contract rk) {σ τ ini : K} (hD : Directed c σ ini)
    (hP : Param c σ τ ini) (hord : c.cps.Pairwise fun a b => τ * σ * a ≤ τ * σ * b) {s s' : St K}
    (h : Inv c σ ini s) (hit : iterate c rk s = .ok (some s')) :
    ∀ cp ∈ c.cps, ¬ Crosses (c.lamOf s.t) (c.lamOf s'.t) cp := by
  obtain ⟨i1, hrun, -, -, -, -, i7, -, i9⟩ := iterate_spec hrk hD hP h hit
  obtain ⟨c1, c2, -⟩ := clipped_spec hD h hrun
  obtain ⟨f1, f2⟩ := firstTrial_spec hD hP h hrun
  have h14 : (0 : K) < 1 / 10 ^ 14 := by positivity
  set ρ := τ * σ with hρd
  have hρ : ρ = 1 ∨ ρ = -1 := by
    rcases hD.sign with e | e <;> rcases hP.sign with e' | e' <;> rw [hρd, e, e'] <;> simp
  have hF : InBox c σ ini (s.t + firstTrial c s) :=
    box_between h.box c2 (by rw [mul_add]; linarith) (by rw [mul_add, mul_add]; linarith)
  have m1 : ρ * c.lamOf s.t ≤ ρ * c.lamOf s'.t := lam_mono hD hP h.box i1.box i9
  have m2 : ρ * c.lamOf s'.t ≤ ρ * c.lamOf (s.t + firstTrial c s) :=
    lam_mono hD hP i1.box hF (by rw [mul_add]; exact i7)
  have m3 : ρ * c.lamOf (s.t + firstTrial c s) ≤ ρ * c.lamOf (s.t + clipped c s) :=
    lam_mono hD hP hF c2 (by rw [mul_add, mul_add]; linarith)
  intro cp hcp hcr
  rw [crosses_iff hρ] at hcr
  have ha : ρ * c.lamOf s.t < ρ * cp := by
    by_contra hc
    push Not at hc
    have : 0 ≤ (ρ * c.lamOf s.t - ρ * cp) * (ρ * c.lamOf s'.t - ρ * cp) := mul_nonneg (by linarith) (by linarith)
    linarith
  have hb : ρ * cp < ρ * c.lamOf s'.t := by
    by_contra hc
    push Not at hc
    have : 0 ≤ (ρ * c.lamOf s.t - ρ * cp) * (ρ * c.lamOf s'.t - ρ * cp) :=
      mul_nonneg_of_nonpos_of_nonpos (by linarith) (by linarith)
    linarith
  have hfull : Crosses (c.lamOf s.t) (c.lamOf (s.t + clipped c s)) cp := by
    rw [crosses_iff hρ]
    nlinarith
  rcases hx : crossing c s with _ | x
  · have := List.find?_eq_none.1 hx cp hcp
    simp only [decide_eq_true_eq] at this
    exact this hfull
  · obtain ⟨hm, hxc⟩ := crossing_mem hx
    have hx0 : (c.lamOf s.t - x) * (c.lamOf (s.t + clipped c s) - x) < 0 := by unfold Crosses at hxc; linarith
    obtain ⟨g1, g2⟩ := hP.cps x hm _ _ h.box c2 hx0
    have hft : s.t + firstTrial c s = c.tOf x := by
      unfold firstTrial
      rw [hx]
      show s.t + (c.tOf x - c.tOf (c.lamOf s.t)) = _
      rw [hP.back _ h.box]; ring
    rw [hft, g2] at m2
    obtain ⟨-, as, bs, hsplit, hbefore⟩ := List.find?_eq_some_iff_append.1 hx
    rw [hsplit, List.mem_append, List.mem_cons] at hcp
    rcases hcp with hcp | hcp | hcp
    · have := hbefore cp hcp
      unfold Crosses at hfull
      simp only [hfull, decide_true, Bool.not_true, Bool.false_eq_true] at this
    · subst hcp; linarith
    · rw [hsplit, List.pairwise_append] at hord
      have := (List.pairwise_cons.1 hord.2.1).1 cp hcp
      linarith

/-- **C126**: if a checkpoint lies on the way and the first trial succeeds, the flow lands on a checkpoint
exactly. -/
theorem c126_lands {c : Cfg K} {rk : Stepper K} (hrk : Contract rk) {σ τ ini : K} (hD : Directed c σ ini)
    (hP : Param c σ τ ini) {s s' : St K} (h : Inv c σ ini s) (hit : iterate c rk s = .ok (some s'))
    (hon : ∃ cp ∈ c.cps, Crosses (c.lamOf s.t) (c.lamOf (s.t + clipped c s)) cp)
    (hok : (rk s.count 0 s.t (firstTrial c s)).ok = true) :
    ∃ cp ∈ c.cps, c.lamOf s'.t = cp ∧ s'.hit = true := by
  obtain ⟨i1, hrun, -, -, -, i6, -, -, -⟩ := iterate_spec hrk hD hP h hit
  obtain ⟨c1, c2, -⟩ := clipped_spec hD h hrun
  obtain ⟨f1, f2⟩ := firstTrial_spec hD hP h hrun
  have hne : firstTrial c s ≠ 0 := by intro e; rw [e] at f1; simp at f1
  rcases hx : crossing c s with _ | x
  · obtain ⟨cp, hcp, hcr⟩ := hon
    have := List.find?_eq_none.1 hx cp hcp
    simp only [decide_eq_true_eq] at this
    exact absurd hcr this
  · obtain ⟨hm, hxc⟩ := crossing_mem hx
    have h14 : (0 : K) < 1 / 10 ^ 14 := by positivity
    have hx0 : (c.lamOf s.t - x) * (c.lamOf (s.t + clipped c s) - x) < 0 := by unfold Crosses at hxc; linarith
    obtain ⟨g1, g2⟩ := hP.cps x hm _ _ h.box c2 hx0
    have hft : s.t + firstTrial c s = c.tOf x := by
      unfold firstTrial
      rw [hx]
      show s.t + (c.tOf x - c.tOf (c.lamOf s.t)) = _
      rw [hP.back _ h.box]; ring
    refine ⟨x, hm, ?_, by rw [i6, hx]; simp⟩
    have ht : s'.t = s.t + firstTrial c s := by
      have htl : (trialLoop (rk s.count) c.maxTrials 0 s.t (firstTrial c s)).1 = rk s.count 0 s.t (firstTrial c s) := by
        rcases c.maxTrials with _ | _ | n <;> simp [trialLoop, hok]
      have : s'.t = (trialLoop (rk s.count) c.maxTrials 0 s.t (firstTrial c s)).1.t := by
        unfold iterate at hit
        rw [if_neg (not_not.2 hrun)] at hit
        simp only [bind, Except.bind, pure, Except.pure, throw, throwThe, MonadExceptOf.throw] at hit
        by_cases h2 : (trialLoop (rk s.count) c.maxTrials 0 s.t (firstTrial c s)).2 = c.maxTrials
        · rw [if_pos h2] at hit; cases hit
        rw [if_neg h2] at hit
        by_cases h3 : s.count + 1 < s.saved.length
        · simp only [if_pos h3] at hit
          obtain rfl := Option.some.inj (Except.ok.inj hit)
          rfl
        · simp only [if_neg h3] at hit; cases hit
      rw [this, htl, (hrk.done s.count 0 s.t _ hne hok).1]
    rw [ht, hft, g2]

/-- **C126** is false for checkpoints not listed in the direction of the flow: with the list 3/10, 3/5 the
descending flow from 1 goes to 3/10 at once and passes 3/5. -/
theorem c126_unordered_refuted :
    ∃ s, iterate (⟨id, id, 0, [3/10, 3/5], 5, 3, 0⟩ : Cfg ℚ) accepting ⟨1, -1, false, 0, 0, [1, 0, 0, 0]⟩ = .ok (some s) ∧
      s.t = 3/10 ∧ Crosses 1 s.t (3/5) := by
  refine ⟨⟨3/10, -7/10, true, -1, 1, [1, 3/10, 0, 0]⟩, ?_, rfl, by unfold Crosses; norm_num⟩
  simp [iterate, less, trialLoop, accepting, firstTrial, crossing, clipped, proposed, bind, Except.bind, pure,
    Except.pure]
  norm_num

/-- **C126** (step sizes) is false after a checkpoint: the flag is never reset, so that from the first checkpoint
on every iteration starts from the step size that was interrupted at the last checkpoint; what the step-size
control proposes is ignored. -/
theorem c126_stale_refuted {c : Cfg K} {rk : Stepper K} {s : St K} (hhit : s.hit = true) {d : K}
    (hsame : 0 < d ↔ 0 < s.dt) : iterate c rk { s with dt := d } = iterate c rk s := by
  have e1 : less c.eps s.t c.fin d ↔ less c.eps s.t c.fin s.dt := by
    unfold less
    by_cases h : 0 < s.dt
    · rw [if_pos h, if_pos (hsame.2 h)]
    · rw [if_neg h, if_neg (fun h' => h (hsame.1 h'))]
  have e2 : proposed ({ s with dt := d } : St K) = proposed s := by simp [proposed, hhit]
  have e3 : clipped c ({ s with dt := d } : St K) = clipped c s := by simp only [clipped, e2]
  have e4 : crossing c ({ s with dt := d } : St K) = crossing c s := by simp only [crossing, e3]
  have e5 : firstTrial c ({ s with dt := d } : St K) = firstTrial c s := by simp only [firstTrial, e4, e3]
  unfold iterate
  simp only [e3, e4, e5, e1]

/-- The flag stays set. -/
theorem c126_flag {c : Cfg K} {rk : Stepper K} {s s' : St K} (hr : Reach c rk s s') (hhit : s.hit = true) :
    s'.hit = true := by
  induction hr with
  | refl => exact hhit
  | step _ hit ih =>
    rename_i a b _
    unfold iterate at hit
    simp only [bind, Except.bind, pure, Except.pure, throw, throwThe, MonadExceptOf.throw] at hit
    by_cases h1 : less c.eps a.t c.fin a.dt
    swap
    · rw [if_pos h1] at hit; cases hit
    rw [if_neg (not_not.2 h1)] at hit
    by_cases h2 : (trialLoop (rk a.count) c.maxTrials 0 a.t (firstTrial c a)).2 = c.maxTrials
    · rw [if_pos h2] at hit; cases hit
    rw [if_neg h2] at hit
    by_cases h3 : a.count + 1 < a.saved.length
    · simp only [if_pos h3] at hit
      obtain rfl := Option.some.inj (Except.ok.inj hit)
      simp [ih]
    · simp only [if_neg h3] at hit; cases hit

/-- **C126** (resumption) is false: whatever the iteration number at which the run is resumed, the flow starts
again at the initial flow parameter, and the flow parameters of the earlier iterations are zero. -/
theorem c126_resume_refuted (tOf : K → K) (d ini fin : K) (iterStart maxStp : Nat) :
    (start tOf d ini fin iterStart maxStp).t = tOf ini ∧ (start tOf d ini fin iterStart maxStp).count = iterStart ∧
    ∀ i, 0 < i → i ≤ maxStp → (start tOf d ini fin iterStart maxStp).saved[i]? = some 0 := by
  refine ⟨rfl, rfl, fun i h0 hi => ?_⟩
  show ((List.replicate (maxStp + 1) (0 : K)).set 0 ini)[i]? = some 0
  rw [List.getElem?_set_ne (by omega)]
  simp [Nat.lt_succ_of_le hi]

/-- Non-trivial instance: a checkpoint at 3/5 interrupts a step from 1 to 1/2; the flow lands on it, and the next
trial has the length 1/2 again although the stepper proposed 2/5. -/
example : ∃ s s', iterate (⟨id, id, 0, [3/5], 5, 3, 0⟩ : Cfg ℚ) accepting ⟨1, -1/2, false, 0, 0, [1, 0, 0, 0]⟩ = .ok (some s) ∧
    s.t = 3/5 ∧ s.dt = -2/5 ∧ firstTrial (⟨id, id, 0, [3/5], 5, 3, 0⟩ : Cfg ℚ) s = -1/2 ∧
    iterate (⟨id, id, 0, [3/5], 5, 3, 0⟩ : Cfg ℚ) accepting s = .ok (some s') ∧ s'.t = 1/10 := by
  refine ⟨⟨3/5, -2/5, true, -1/2, 1, [1, 3/5, 0, 0]⟩, ⟨1/10, -1/2, true, -1/2, 2, [1, 3/5, 1/10, 0]⟩, ?_, rfl, rfl, ?_, ?_, rfl⟩
  · simp [iterate, less, trialLoop, accepting, firstTrial, crossing, clipped, proposed, bind, Except.bind, pure,
      Except.pure]
    norm_num
  · simp [less, firstTrial, crossing, clipped, proposed]
    norm_num
  · simp [iterate, less, trialLoop, accepting, firstTrial, crossing, clipped, proposed, bind, Except.bind, pure,
      Except.pure]
    norm_num

end Verif.Boost
