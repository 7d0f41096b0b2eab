import Verif.Flow.Spec
import Mathlib.Tactic.Linarith
import Mathlib.Tactic.Ring
import Mathlib.Tactic.FieldSimp
import Mathlib.Tactic.NormNum
import Mathlib.Algebra.Order.Field.Rat

/-! C15–C18: the flow loop. -/
namespace Verif.Flow

variable {K : Type} [Field K] [LinearOrder K] [IsStrictOrderedRing K]

/-- The two variables that hold the flow parameter agree throughout. -/
theorem lam_eq_now {c : Config K} {rk : Stepper K} (hrk : Contract rk) {s s' : St K}
    (h0 : s.lam = s.now) (h : Reach c rk s s') : s'.lam = s'.now := by
  induction h with
  | refl => exact h0
  | step _ hit ih =>
    rename_i a b _
    unfold iterate at hit
    cases hc : clampStep c a with
    | none => simp [hc] at hit
    | some h₀ =>
      simp only [hc, Option.some.injEq] at hit
      rw [← hit]
      simp only [hrk.advance, ih]

/-- A step of the contract ends between its start and its target. -/
theorem contract_between {rk : Stepper K} (hrk : Contract rk) (i : Nat) (lam h : K) :
    Between lam (lam + h) (rk i lam h).lam := by
  rw [hrk.advance]
  obtain ⟨h1, h2⟩ := hrk.short i lam h
  set d := (rk i lam h).hdid
  unfold Between
  rcases le_total 0 h with hh | hh
  · have hd : d ≤ h := le_trans (le_abs_self d) (h2.trans (abs_of_nonneg hh).le)
    have hd0 : 0 ≤ d := by
      rcases hh.eq_or_lt with e | hpos
      · rw [← e, abs_zero] at h2
        exact (abs_eq_zero.mp (le_antisymm h2 (abs_nonneg d))).ge
      · exact nonneg_of_mul_nonneg_left h1 hpos
    constructor
    · exact min_le_of_left_le (by linarith)
    · exact le_max_of_le_right (by linarith)
  · have hd : h ≤ d := by
      have := neg_abs_le d; rw [abs_of_nonpos hh] at h2; linarith
    have hd0 : d ≤ 0 := by
      rcases hh.eq_or_lt with e | hneg
      · rw [e, abs_zero] at h2
        exact (abs_eq_zero.mp (le_antisymm h2 (abs_nonneg d))).le
      · by_contra hc
        push Not at hc
        have := mul_neg_of_pos_of_neg hc hneg
        linarith
    constructor
    · exact min_le_of_right_le (by linarith)
    · exact le_max_of_le_left (by linarith)

/-- The clamped step never leads beyond the end of the interval, in whichever direction the proposal
points. -/
theorem clamp_between {c : Config K} {s : St K} (hl : s.lam = s.now) {h : K}
    (hc : clampStep c s = some h) : Between s.lam c.fin (s.lam + h) := by
  unfold clampStep at hc
  split_ifs at hc with h1 h2
  · have : s.lam + h = c.fin := by
      have := Option.some.inj hc; rw [← this]; ring
    rw [this]; exact ⟨min_le_right _ _, le_max_right _ _⟩
  · have he := Option.some.inj hc
    rw [he, ← hl] at h1
    have h1' : (s.lam + h - c.fin) * h ≤ 0 := by
      have := not_lt.mp h1
      rwa [show s.lam + h - s.lam = h by ring] at this
    unfold Between
    rcases le_total 0 h with hh | hh
    · rcases hh.eq_or_lt with e | hpos
      · rw [← e]; simp
      · have : s.lam + h ≤ c.fin := by
          by_contra hcon; push Not at hcon
          have := mul_pos (sub_pos.mpr hcon) hpos; linarith
        exact ⟨min_le_of_left_le (by linarith), le_max_of_le_right this⟩
    · rcases hh.eq_or_lt with e | hneg
      · rw [e]; simp
      · have : c.fin ≤ s.lam + h := by
          by_contra hcon; push Not at hcon
          have := mul_pos_of_neg_of_neg (sub_neg.mpr hcon) hneg; linarith
        exact ⟨min_le_of_right_le this, le_max_of_le_left (by linarith)⟩

theorem between_trans {a b x y : K} (hx : Between a b x) (hy : Between a x y) : Between a b y := by
  unfold Between at *
  rcases le_total a b with h | h
  · simp only [min_eq_left h, max_eq_right h] at hx ⊢
    simp only [min_eq_left hx.1, max_eq_right hx.1] at hy
    exact ⟨hy.1, hy.2.trans hx.2⟩
  · simp only [min_eq_right h, max_eq_left h] at hx ⊢
    simp only [min_eq_right hx.2, max_eq_left hx.2] at hy
    exact ⟨hx.1.trans hy.1, hy.2⟩

theorem between_split {a b x : K} (hx : Between a b x) {y : K} (hy : Between x b y) : Between a b y := by
  unfold Between at *
  rcases le_total a b with h | h
  · simp only [min_eq_left h, max_eq_right h] at hx ⊢
    simp only [min_eq_left hx.2, max_eq_right hx.2] at hy
    exact ⟨hx.1.trans hy.1, hy.2⟩
  · simp only [min_eq_right h, max_eq_left h] at hx ⊢
    simp only [min_eq_right hx.1, max_eq_left hx.1] at hy
    exact ⟨hy.1, hy.2.trans hx.2⟩

/-- Without checkpoints the flags that checkpoints set stay false. -/
theorem hit_false {c : Config K} {rk : Stepper K} (hcp : c.checkpoints = []) {s s' : St K}
    (h0 : s.hit = false) (h : Reach c rk s s') : s'.hit = false := by
  cases h with
  | refl => exact h0
  | step _ hit =>
    rename_i a _
    unfold iterate at hit
    cases hc : clampStep c a with
    | none => simp [hc] at hit
    | some h₀ =>
      simp only [hc, Option.some.injEq, hcp] at hit
      rw [← hit]; simp [crossed]

/-- C15 (flows without checkpoints): whatever the step proposals, each accepted value of the flow parameter
lies between the previous one and the final one, so the flow moves monotonically and never leaves the
interval. -/
theorem c15_interval_partial {c : Config K} {rk : Stepper K} (hrk : Contract rk) (hcp : c.checkpoints = [])
    {lambdas : List K} {h : K} {s : St K} (hs : Reach c rk (start c lambdas h) s) :
    Between c.now c.fin s.lam ∧
      ∀ s', iterate c rk s = some s' → Between s.lam c.fin s'.lam := by
  have step : ∀ {s}, Reach c rk (start c lambdas h) s →
      ∀ s', iterate c rk s = some s' → Between s.lam c.fin s'.lam := by
    intro s hs s' hit
    have hl : s.lam = s.now := lam_eq_now hrk rfl hs
    have hh : s.hit = false := hit_false hcp rfl hs
    unfold iterate at hit
    cases hc : clampStep c s with
    | none => simp [hc] at hit
    | some h₀ =>
      simp only [hc, Option.some.injEq, hcp, crossed, cutStep, List.find?_nil, afterHit, hh, Bool.false_eq_true,
        if_false] at hit
      rw [← hit]
      exact between_trans (clamp_between hl hc) (contract_between hrk _ _ _)
  refine ⟨?_, step hs⟩
  induction hs with
  | refl => exact ⟨min_le_left _ _, le_max_left _ _⟩
  | step hr hit ih => exact between_split ih (step hr _ hit)

/-- C15: a flow with positive final value that stops because of the end condition has reached the final
value, up to the relative tolerance `1e-8`. -/
theorem c15_end_reached_partial {c : Config K} {rk : Stepper K} (hfin : 0 < c.fin) {s : St K}
    (hstop : iterate c rk s = none) : |c.fin - s.lam| < c.fin / 10^8 := by
  unfold iterate at hstop
  cases hc : clampStep c s with
  | some h₀ => simp [hc] at hstop
  | none =>
    unfold clampStep at hc
    split_ifs at hc with h1 h2
    simp only [endReached, decide_eq_true_eq] at h2
    have := (div_lt_iff₀ hfin).mp h2.2
    linarith [show 1 / (10:K)^8 * c.fin = c.fin / 10^8 by ring]

/-- C15: a flow without checkpoints that has reached its final value stops at the next iteration if a
further step is proposed. -/
theorem c15_stops_at_end {c : Config K} {rk : Stepper K} (hfin : 0 < c.fin) {s : St K}
    (hl : s.lam = c.fin) (hn : s.now = c.fin) (hh : s.h ≠ 0) : iterate c rk s = none := by
  have h1 : (s.lam + s.h - c.fin) * (s.lam + s.h - s.now) > 0 := by
    rw [hl, hn]; have := mul_self_pos.mpr hh
    calc (c.fin + s.h - c.fin) * (c.fin + s.h - c.fin) = s.h * s.h := by ring
      _ > 0 := this
  have h2 : endReached c.fin s.lam = true := by
    simp [endReached, hl, hfin.ne']
  simp [iterate, clampStep, h1, h2]

/-- C15 is false with a negative final value: the end test divides by it, so the flow stops as soon as a
proposal reaches beyond the end, far away from it. -/
theorem c15_negative_end_refuted :
    let c : Config ℚ := ⟨50, 1, 1, -1, 0, []⟩
    ∀ rk, solve c rk (List.replicate 51 1) (-3) = (start c (List.replicate 51 1) (-3), .endCondition) := by
  intro c rk
  have : iterate c rk (start c (List.replicate 51 1) (-3)) = none := by
    have : clampStep c (start c (List.replicate 51 1) (-3)) = none := by decide +kernel
    rw [iterate, this]
  show loop c rk 50 _ = _
  rw [loop, this]

/-- C15 is false with final value zero: the end test never holds, and the flow only ends with the step
limit. -/
theorem c15_zero_end_refuted {c : Config K} {rk : Stepper K} (hfin : c.fin = 0) (n : Nat) (s : St K) :
    (loop c rk n s).2 = .stepLimit ∧ (loop c rk n s).1.i = s.i + n := by
  induction n generalizing s with
  | zero => exact ⟨rfl, rfl⟩
  | succ n ih =>
    have : ∃ s', iterate c rk s = some s' ∧ s'.i = s.i + 1 := by
      cases hc : clampStep c s with
      | none =>
        unfold clampStep at hc
        split_ifs at hc with h1 h2
        simp [endReached, hfin] at h2
      | some h₀ => exact ⟨_, by simp only [iterate, hc]; rfl, rfl⟩
    obtain ⟨s', h1, h2⟩ := this
    rw [loop, h1]
    exact ⟨(ih s').1, by rw [(ih s').2, h2]; omega⟩

/-- A step routine that always takes the trial step and proposes it again. -/
def fullStep : Stepper ℚ := fun _ lam h => ⟨lam + h, h, h⟩

theorem fullStep_contract : Contract fullStep :=
  ⟨fun _ _ _ => rfl, fun _ _ h => ⟨mul_self_nonneg h, le_rfl⟩⟩

/-- C15 is false with checkpoints: a descending flow from 1/2 to 1/10 with checkpoint 1/5 overshoots the
final value after the checkpoint, because the remaining step (clamped to the end) is used to compute a new,
longer one. -/
theorem c15_checkpoint_overshoot_refuted :
    let c : Config ℚ := ⟨50, 1/2, 1/2, 1/10, 0, [1/5]⟩
    ∃ s, Reach c fullStep (start c (List.replicate 52 (1/2)) (-2/5)) s ∧ s.lam = -1/10 ∧ s.lam < c.fin := by
  intro c
  let s0 := start c (List.replicate 52 (1/2)) (-2/5)
  have h1 : ∃ s1, iterate c fullStep s0 = some s1 ∧ ∃ s2, iterate c fullStep s1 = some s2 ∧
      s2.lam = -1/10 := by
    refine ⟨(iterate c fullStep s0).get (by decide +kernel), by simp, ?_⟩
    refine ⟨(iterate c fullStep ((iterate c fullStep s0).get (by decide +kernel))).get (by decide +kernel),
      by simp, by decide +kernel⟩
  obtain ⟨s1, e1, s2, e2, e3⟩ := h1
  exact ⟨s2, (Reach.refl.step e1).step e2, e3, by rw [e3]; decide +kernel⟩

/-- C15, ascending flows: the step after a checkpoint is the full previous proposal counted from the
checkpoint, so that it goes beyond the previously proposed value (here 0 → 2/5 → 7/5 instead of 1) and beyond
the final value. -/
theorem c15_ascending_checkpoint_refuted :
    let c : Config ℚ := ⟨50, 0, 0, 1, 0, [2/5]⟩
    ∃ s, Reach c fullStep (start c (List.replicate 52 0) 1) s ∧ s.lam = 7/5 ∧ c.fin < s.lam := by
  intro c
  let s0 := start c (List.replicate 52 0) 1
  have h1 : ∃ s1, iterate c fullStep s0 = some s1 ∧ ∃ s2, iterate c fullStep s1 = some s2 ∧
      s2.lam = 7/5 := by
    refine ⟨(iterate c fullStep s0).get (by decide +kernel), by simp, ?_⟩
    refine ⟨(iterate c fullStep ((iterate c fullStep s0).get (by decide +kernel))).get (by decide +kernel),
      by simp, by decide +kernel⟩
  obtain ⟨s1, e1, s2, e2, e3⟩ := h1
  exact ⟨s2, (Reach.refl.step e1).step e2, e3, by rw [e3]; decide +kernel⟩

/-- C15, descending flows with checkpoints: after a checkpoint has shortened a step, and if the end clamp
does not act, the next target is the target proposed before the checkpoint (which lies in the interval). -/
theorem c15_after_checkpoint_partial {c : Config K} {s : St K} (hh : s.hit = true) {lam0 : K}
    (hdone : s.lam = lam0 + s.h) (hdir : s.h ≤ 0) :
    s.lam + afterHit s s.h = lam0 + s.prev := by
  have : s.prev ≤ s.prev - s.h := by linarith
  simp only [afterHit, hh, if_true, max_eq_right this, hdone]
  ring

/-! ### C16 -/

theorem crosses_of_between {x y z cp : K} (hy : Between x z y) (h : Crosses x y cp) : Crosses x z cp := by
  unfold Between Crosses at *
  rcases le_total x z with hxz | hxz
  · simp only [min_eq_left hxz, max_eq_right hxz] at hy
    by_cases hx : x - cp ≤ 0
    · nlinarith
    · push Not at hx
      have : 0 ≤ (x - cp) * (y - cp) := mul_nonneg hx.le (by linarith)
      have h10 : (0:K) < 1 / 10^10 := by positivity
      linarith
  · simp only [min_eq_right hxz, max_eq_left hxz] at hy
    by_cases hx : 0 ≤ x - cp
    · nlinarith
    · push Not at hx
      have : 0 ≤ (x - cp) * (y - cp) := mul_nonneg_of_nonpos_of_nonpos hx.le (by linarith)
      have h10 : (0:K) < 1 / 10^10 := by positivity
      linarith

/-- No checkpoint before the first crossed one in the list is crossed; the later ones are not crossed on the
way to it if the list is ordered in the direction of the step. -/
theorem crossed_spec {now h : K} {cps : List K} (hord : (h ≤ 0 ∧ cps.Pairwise (· ≥ ·)) ∨
    (0 ≤ h ∧ cps.Pairwise (· ≤ ·))) :
    let h' := cutStep now h (crossed now h cps)
    ∀ cp ∈ cps, ¬ Crosses now (now + h') cp := by
  have h10 : (0:K) < 1 / 10^10 := by positivity
  intro h' cp hcp hcr
  cases hx : crossed now h cps with
  | none =>
    have : h' = h := by simp only [h', hx, cutStep]
    rw [this] at hcr
    have := List.find?_eq_none.mp hx cp hcp
    simp only [decide_eq_true_eq] at this
    exact this hcr
  | some x =>
    have hh' : h' = x - now := by simp only [h', hx, cutStep]
    have hnx : now + h' = x := by rw [hh']; ring
    rw [hnx] at hcr
    unfold crossed at hx
    obtain ⟨hxp, as, bs, hsplit, hbefore⟩ := List.find?_eq_some_iff_append.mp hx
    simp only [decide_eq_true_eq] at hxp
    -- x lies strictly between now and now + h
    have hbet : Between now (now + h) x := by
      unfold Between
      rcases hord with ⟨hneg, _⟩ | ⟨hpos, _⟩
      · rw [min_eq_right (by linarith), max_eq_left (by linarith)]
        constructor
        · by_contra hc; push Not at hc
          have : 0 ≤ (now - x) * (now + h - x) := mul_nonneg (by linarith) (by linarith)
          linarith
        · by_contra hc; push Not at hc
          have : 0 ≤ (now - x) * (now + h - x) :=
            mul_nonneg_of_nonpos_of_nonpos (by linarith) (by linarith)
          linarith
      · rw [min_eq_left (by linarith), max_eq_right (by linarith)]
        constructor
        · by_contra hc; push Not at hc
          have : 0 ≤ (now - x) * (now + h - x) := mul_nonneg (by linarith) (by linarith)
          linarith
        · by_contra hc; push Not at hc
          have : 0 ≤ (now - x) * (now + h - x) :=
            mul_nonneg_of_nonpos_of_nonpos (by linarith) (by linarith)
          linarith
    rw [hsplit, List.mem_append, List.mem_cons] at hcp
    rcases hcp with hcp | hcp | hcp
    · have hb := hbefore cp hcp
      have hcr' := crosses_of_between hbet hcr
      unfold Crosses at hcr'
      simp only [hcr', decide_true, Bool.not_true, Bool.false_eq_true] at hb
    · subst hcp
      unfold Crosses at hcr
      simp only [sub_self, mul_zero] at hcr
      linarith
    · unfold Crosses at hcr
      unfold Between at hbet
      rcases hord with ⟨hneg, hp⟩ | ⟨hpos, hp⟩
      · rw [hsplit, List.pairwise_append] at hp
        have hle : x ≥ cp := (List.pairwise_cons.mp hp.2.1).1 cp hcp
        rw [min_eq_right (by linarith), max_eq_left (by linarith)] at hbet
        have : 0 ≤ (now - cp) * (x - cp) := mul_nonneg (by linarith) (by linarith)
        linarith
      · rw [hsplit, List.pairwise_append] at hp
        have hle : x ≤ cp := (List.pairwise_cons.mp hp.2.1).1 cp hcp
        rw [min_eq_left (by linarith), max_eq_right (by linarith)] at hbet
        have : 0 ≤ (now - cp) * (x - cp) := mul_nonneg_of_nonpos_of_nonpos (by linarith) (by linarith)
        linarith

/-- C16 (checkpoints listed in the direction of the flow): no accepted step crosses a checkpoint by more
than the tolerance; and if the step routine takes the whole shortened step the flow parameter lands on a
checkpoint. -/
theorem c16_no_skip_partial {c : Config K} {rk : Stepper K} (hrk : Contract rk) {s s' : St K}
    (hl : s.lam = s.now) (hit : iterate c rk s = some s')
    (hord : (s'.prev ≤ 0 ∧ c.checkpoints.Pairwise (· ≥ ·)) ∨ (0 ≤ s'.prev ∧ c.checkpoints.Pairwise (· ≤ ·))) :
    (∀ cp ∈ c.checkpoints, ¬ Crosses s.lam s'.lam cp) ∧
      ((∃ cp ∈ c.checkpoints, Crosses s.lam (s.lam + s'.prev) cp) →
        ∃ cp ∈ c.checkpoints, s'.hit = true ∧ s'.lam = (rk s.i s.lam (cp - s.lam)).lam ∧
          ((rk s.i s.lam (cp - s.lam)).hdid = cp - s.lam → s'.lam = cp)) := by
  unfold iterate at hit
  cases hc : clampStep c s with
  | none => simp [hc] at hit
  | some h₀ =>
    simp only [hc, Option.some.injEq] at hit
    have hprev : s'.prev = afterHit s h₀ := by rw [← hit]
    rw [hprev] at hord ⊢
    have key := crossed_spec (now := s.now) hord
    have hlam : s'.lam = (rk s.i s.lam (cutStep s.now (afterHit s h₀)
      (crossed s.now (afterHit s h₀) c.checkpoints))).lam := by rw [← hit]
    constructor
    · intro cp hcp hcr
      refine key cp hcp ?_
      rw [← hl] at hlam ⊢
      refine crosses_of_between ?_ hcr
      rw [hlam]
      exact contract_between hrk _ _ _
    · rintro ⟨cp, hcp, hcr⟩
      cases hx : crossed s.now (afterHit s h₀) c.checkpoints with
      | none =>
        have := List.find?_eq_none.mp hx cp hcp
        simp only [decide_eq_true_eq] at this
        rw [hl] at hcr
        exact absurd hcr this
      | some x =>
        refine ⟨x, List.mem_of_find?_eq_some hx, ?_, ?_, ?_⟩
        · rw [← hit]; simp [hx]
        · rw [hlam, hx]; simp only [hl, cutStep]
        · intro hd
          rw [hlam, hx]
          simp only [cutStep]
          rw [← hl, hrk.advance, hd]; ring

/-- Non-trivial instance: checkpoints 4/5 and 3/5, a descending step from 1 to 1/2 is cut at 4/5. -/
example : let c : Config ℚ := ⟨50, 1, 1, 1/10, 0, [4/5, 3/5]⟩
    (iterate c fullStep (start c (List.replicate 53 1) (-1/2))).map (·.lam) = some (4/5) := by
  decide +kernel

/-- C16 is false when the checkpoints are not listed in the direction of the flow: with the list 3/10, 3/5 a
descending step from 1 goes to 3/10 and passes 3/5. -/
theorem c16_unordered_refuted :
    let c : Config ℚ := ⟨50, 1, 1, 1/10, 0, [3/10, 3/5]⟩
    ∃ s', iterate c fullStep (start c (List.replicate 53 1) (-9/10)) = some s' ∧ s'.lam = 3/10 ∧
      Crosses 1 s'.lam (3/5) := by
  intro c
  refine ⟨(iterate c fullStep (start c (List.replicate 53 1) (-9/10))).get (by decide +kernel), by simp,
    by decide +kernel, by unfold Crosses; decide +kernel⟩

/-- C16 is false for close checkpoints: a step that passes a checkpoint at a small distance is not
shortened. -/
theorem c16_close_checkpoint_refuted :
    let c : Config ℚ := ⟨50, 1, 1, 1/10, 0, [1 - 1/10^6]⟩
    ∃ s', iterate c fullStep (start c (List.replicate 52 1) (-(1/10^6 + 1/10^5))) = some s' ∧
      s'.lam < 1 - 1/10^6 := by
  intro c
  refine ⟨(iterate c fullStep (start c (List.replicate 52 1) (-(1/10^6 + 1/10^5)))).get (by decide +kernel),
    by simp, by decide +kernel⟩

/-! ### C17 -/

/-- C17 is false: with the identity parametrisation (the same happens for every increasing one) a descending
flow 1 → 1/2 that is resumed proposes an ascending step, which the loop turns into one step over the whole
remaining interval. -/
theorem c17_direction_refuted :
    resumeTry (K := ℚ) id id 10 (1/100000) 1 (1/2) (1/2) = 1/2 ∧
    let c : Config ℚ := ⟨50, 1, 1/2, 1/10, 1, []⟩
    clampStep c (start c [1, 1/2] (1/2)) = some (c.fin - c.now) := by
  decide +kernel

/-- C17 for every increasing parametrisation: the proposed step of a resumed flow is always ascending. -/
theorem c17_always_ascending_refuted {tOf lamOf : K → K} (hinv : ∀ x, lamOf (tOf x) = x)
    (hmono : StrictMono lamOf) {tMax tMin : K} (hmin : 0 < tMin) (l0 l1 now : K) :
    0 < resumeTry tOf lamOf tMax tMin l0 l1 now := by
  have : tOf now < tOf now + max |min |tOf l1 - tOf l0| tMax| tMin := by
    have := lt_of_lt_of_le hmin (le_max_right |min |tOf l1 - tOf l0| tMax| tMin); linarith
  have h := hmono this
  rw [hinv] at h
  exact sub_pos.mpr h

/-- C17, what holds: if the flow moves towards larger values of the auxiliary variable, the resumed flow
repeats the last step of the saved flow (which is the step taken, not the step that was proposed next), as
long as it lies within the limits. -/
theorem c17_increasing_partial {tOf lamOf : K → K} {tMax tMin l0 l1 : K}
    (hdir : 0 ≤ tOf l1 - tOf l0) (h1 : tOf l1 - tOf l0 ≤ tMax) (h2 : tMin ≤ tOf l1 - tOf l0) :
    resumeTry tOf lamOf tMax tMin l0 l1 l1 = lamOf (tOf l1 + (tOf l1 - tOf l0)) - l1 := by
  simp only [resumeTry, abs_of_nonneg hdir, min_eq_left h1, max_eq_left h2]

/-! ### C18 -/

/-- What one iteration does to the counter and to the recorded list. -/
theorem iterate_record {c : Config K} {rk : Stepper K} {s s' : St K} (hit : iterate c rk s = some s') :
    s'.i = s.i + 1 ∧ s'.saved = s.saved.set (s.i + 1) s'.lam := by
  unfold iterate at hit
  cases hc : clampStep c s with
  | none => simp [hc] at hit
  | some h₀ =>
    simp only [hc, Option.some.injEq] at hit
    rw [← hit]; exact ⟨rfl, rfl⟩

/-- C18: the loop makes at most the given number of iterations, and everything it visits is reached by
single iterations. -/
theorem loop_reach (c : Config K) (rk : Stepper K) (n : Nat) (s : St K) :
    Reach c rk s (loop c rk n s).1 ∧ (loop c rk n s).1.i ≤ s.i + n ∧ s.i ≤ (loop c rk n s).1.i ∧
      ((loop c rk n s).2 = .stepLimit → (loop c rk n s).1.i = s.i + n) ∧
      ((loop c rk n s).2 = .endCondition → iterate c rk (loop c rk n s).1 = none) := by
  have htrans : ∀ {a b d : St K}, Reach c rk a b → Reach c rk b d → Reach c rk a d := by
    intro a b d h1 h2
    induction h2 with
    | refl => exact h1
    | step _ h ih => exact ih.step h
  induction n generalizing s with
  | zero => exact ⟨.refl, le_rfl, le_rfl, fun _ => rfl, fun h => by cases h⟩
  | succ n ih =>
    rw [loop]
    cases hi : iterate c rk s with
    | none => exact ⟨.refl, by simp, le_rfl, (fun h => by cases h), fun _ => hi⟩
    | some s' =>
      obtain ⟨h1, h2, h3, h4, h5⟩ := ih s'
      have hi' := (iterate_record hi).1
      simp only
      exact ⟨htrans (Reach.refl.step hi) h1, by omega, by omega, fun h => by rw [h4 h]; omega, h5⟩

/-- C18: the solver stops after at most the configured number of steps plus one per checkpoint; the counter
stays within the recorded list; it ends with the step limit only after exactly that many steps. -/
theorem c18_bounded {c : Config K} {rk : Stepper K} {lambdas : List K} {h : K}
    (hlen : lambdas.length = c.maxStp + 1) (hstart : c.iterStart ≤ c.maxStp) :
    let r := solve c rk lambdas h
    c.iterStart ≤ r.1.i ∧ r.1.i ≤ c.maxSteps + c.checkpoints.length ∧ r.1.i < lambdas.length ∧
      (r.2 = .stepLimit → r.1.i = c.maxSteps + c.checkpoints.length) ∧
      (r.2 = .endCondition → iterate c rk r.1 = none) := by
  intro r
  obtain ⟨_, h2, h3, h4, h5⟩ := loop_reach c rk (c.maxStp - c.iterStart) (start c lambdas h)
  have hi : (start c lambdas h).i = c.iterStart := rfl
  have hm : c.maxStp = c.maxSteps + c.checkpoints.length := rfl
  rw [hi] at h2 h3 h4
  refine ⟨h3, ?_, ?_, ?_, h5⟩
  · show (loop _ _ _ _).1.i ≤ _
    omega
  · show (loop _ _ _ _).1.i < _
    omega
  · intro hs; have := h4 hs
    show (loop _ _ _ _).1.i = _
    omega

/-- C18: the recorded list keeps its length, its entries up to the start of the call, and records the
current flow parameter at the position of the counter; entries recorded earlier are never changed. -/
theorem c18_record {c : Config K} {rk : Stepper K} {s0 s : St K}
    (hlen : s.i < s0.saved.length) (h0 : s0.saved[s0.i]? = some s0.lam) (hs : Reach c rk s0 s) :
    s.saved.length = s0.saved.length ∧ s.saved[s.i]? = some s.lam ∧
      (∀ j, j ≤ s0.i → s.saved[j]? = s0.saved[j]?) ∧
      (∀ s', iterate c rk s = some s' → ∀ j, j ≤ s.i → s'.saved[j]? = s.saved[j]?) := by
  have hi0 : s0.i ≤ s.i := by
    clear hlen
    induction hs with
    | refl => exact le_rfl
    | step _ h ih => rw [(iterate_record h).1]; omega
  have last : ∀ s', iterate c rk s = some s' → ∀ j, j ≤ s.i → s'.saved[j]? = s.saved[j]? := by
    intro s' h j hj
    rw [(iterate_record h).2, List.getElem?_set_ne (by omega)]
  refine ⟨?_, ?_, ?_, last⟩
  · clear last hlen hi0
    induction hs with
    | refl => rfl
    | step _ h ih => rw [(iterate_record h).2, List.length_set, ih]
  · have hl : s.saved.length = s0.saved.length := by
      clear last hlen hi0
      induction hs with
      | refl => rfl
      | step _ h ih => rw [(iterate_record h).2, List.length_set, ih]
    cases hs with
    | refl => exact h0
    | step _ h =>
      obtain ⟨a, b⟩ := iterate_record h
      rw [b, a, List.getElem?_set_self]
      rw [b, List.length_set] at hl; omega
  · clear last hlen
    intro j hj
    induction hs with
    | refl => rfl
    | step hr h ih =>
      rename_i a b
      have hia : s0.i ≤ a.i := by
        clear ih h hi0
        induction hr with
        | refl => exact le_rfl
        | step _ h ih => rw [(iterate_record h).1]; omega
      rw [(iterate_record h).2, List.getElem?_set_ne (by omega), ih hia]

/-- C18: a configuration without steps is not rejected: the initial trial step is read outside the flow
grid. -/
theorem c18_no_steps_refuted (tOf lamOf : K → K) (tMax tMin x0 x1 : K) :
    initialTry tOf lamOf tMax tMin ⟨0, x0, x0, x1, 0, []⟩ [x0] [x0] = .error .undefined := rfl

/-! ### C73 -/

/-- C73 is false: the solver leaves the reached flow parameter in the configuration; a second call with the
same configuration starts there instead of at the initial value. -/
theorem c73_reuse_refuted :
    let c : Config ℚ := ⟨1, 1, 1, 1/10, 0, []⟩
    let r := solve c fullStep [1, 1] (-1/2)
    let c' := { c with now := r.1.now }
    (start c' [1, 1] (-1/2)).lam = 1/2 ∧ c'.ini = 1 := by
  decide +kernel

end Verif.Flow
