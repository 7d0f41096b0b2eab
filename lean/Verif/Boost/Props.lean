import Verif.Boost.Spec
import Mathlib.Tactic.Linarith
import Mathlib.Tactic.Ring
import Mathlib.Tactic.NormNum
import Mathlib.Algebra.Order.Field.Rat

/-! C125: the flow driver built on Boost. -/
namespace Verif.Boost

variable {K : Type} [Field K] [LinearOrder K] [IsStrictOrderedRing K]

theorem less_iff {eps a b d σ : K} (hσ : σ = 1 ∨ σ = -1) (hd : 0 < σ * d) :
    less eps a b d ↔ eps < σ * b - σ * a := by
  unfold less
  rcases hσ with rfl | rfl
  · rw [if_pos (by linarith)]; constructor <;> intro h <;> linarith
  · rw [if_neg (by linarith)]; constructor <;> intro h <;> linarith

/-- What the trials of one iteration do. -/
theorem trialLoop_spec {f : Nat → K → K → Attempt K} {σ : K} (hσ : σ = 1 ∨ σ = -1)
    (hdone : ∀ k t dt, dt ≠ 0 → (f k t dt).ok = true → (f k t dt).t = t + dt ∧ 0 < (f k t dt).dt * dt)
    (hrej : ∀ k t dt, dt ≠ 0 → (f k t dt).ok = false →
      (f k t dt).t = t ∧ 0 < (f k t dt).dt * dt ∧ |(f k t dt).dt| ≤ |dt|) (n k : Nat) (t dt : K) (hd : 0 < σ * dt) :
    let r := trialLoop f n k t dt
    k + 1 ≤ r.2 ∧ r.2 ≤ max (k + 1) (k + n) ∧ 0 < σ * r.1.dt ∧
    (r.1.ok = true → ∃ d, 0 < σ * d ∧ σ * d ≤ σ * dt ∧ r.1.t = t + d) ∧
    (r.1.ok = false → r.1.t = t ∧ r.2 = max (k + 1) (k + n)) := by
  have hne : ∀ {d : K}, 0 < σ * d → d ≠ 0 := by rintro d h rfl; simp at h
  have hsame : ∀ {x d : K}, 0 < σ * d → 0 < x * d → 0 < σ * x := by
    intro x d h1 h2
    rcases hσ with rfl | rfl
    · have : 0 < d := by linarith
      have := (pos_iff_pos_of_mul_pos h2).2 this
      linarith
    · have hd : 0 < -d := by linarith
      have h3 : 0 < (-x) * (-d) := by linarith
      have := (pos_iff_pos_of_mul_pos h3).2 hd
      linarith
  have habs : ∀ {d : K}, 0 < σ * d → |d| = σ * d := by
    intro d h
    rcases hσ with rfl | rfl
    · rw [abs_of_pos (by linarith)]; ring
    · rw [abs_of_neg (by linarith)]; ring
  have one : ∀ k t dt, 0 < σ * dt → 0 < σ * (f k t dt).dt ∧
      ((f k t dt).ok = true → (f k t dt).t = t + dt) ∧
      ((f k t dt).ok = false → (f k t dt).t = t ∧ σ * (f k t dt).dt ≤ σ * dt) := by
    intro k t dt hd
    rcases hb : (f k t dt).ok with _ | _
    · obtain ⟨h1, h2, h3⟩ := hrej k t dt (hne hd) hb
      have h4 := hsame hd h2
      refine ⟨h4, by simp, fun _ => ⟨h1, ?_⟩⟩
      rwa [habs h4, habs hd] at h3
    · obtain ⟨h1, h2⟩ := hdone k t dt (hne hd) hb
      exact ⟨hsame hd h2, fun _ => h1, by simp⟩
  induction n using Nat.strong_induction_on generalizing k t dt with
  | _ n ih =>
    obtain ⟨o1, o2, o3⟩ := one k t dt hd
    rcases n with _ | _ | n
    · simp only [trialLoop]
      exact ⟨le_rfl, le_max_left _ _, o1, fun h => ⟨dt, hd, le_rfl, o2 h⟩, fun h => ⟨(o3 h).1, by simp⟩⟩
    · simp only [trialLoop]
      exact ⟨le_rfl, le_max_left _ _, o1, fun h => ⟨dt, hd, le_rfl, o2 h⟩, fun h => ⟨(o3 h).1, by simp⟩⟩
    · simp only [trialLoop]
      rcases hb : (f k t dt).ok with _ | _
      · simp only [Bool.false_eq_true, if_false]
        obtain ⟨h1, h2⟩ := o3 hb
        obtain ⟨i1, i2, i3, i4, i5⟩ := ih (n + 1) (by omega) (k + 1) (f k t dt).t (f k t dt).dt o1
        refine ⟨by omega, by omega, i3, ?_, ?_⟩
        · intro h
          obtain ⟨d, d1, d2, d3⟩ := i4 h
          exact ⟨d, d1, d2.trans h2, by rw [d3, h1]⟩
        · intro h
          obtain ⟨j1, j2⟩ := i5 h
          exact ⟨by rw [j1, h1], by omega⟩
      · simp only [if_true]
        exact ⟨le_rfl, le_max_left _ _, o1, fun h => ⟨dt, hd, le_rfl, o2 hb⟩, fun h => absurd (hb ▸ h) (by simp)⟩

/-- Invariant of the loop. -/
structure Inv (c : Cfg K) (σ ini : K) (s : St K) : Prop where
  box : InBox c σ ini s.t
  dir : 0 < σ * s.dt
  temp : s.hit = true → 0 < σ * s.dtTemp

theorem proposed_pos {c : Cfg K} {σ ini : K} {s : St K} (h : Inv c σ ini s) : 0 < σ * proposed s := by
  unfold proposed
  split_ifs with hh
  · exact h.temp hh
  · exact h.dir

/-- The clipped step points ahead and stays in the box. -/
theorem clipped_spec {c : Cfg K} {σ ini : K} (hD : Directed c σ ini) {s : St K} (h : Inv c σ ini s)
    (hrun : less c.eps s.t c.fin s.dt) :
    0 < σ * clipped c s ∧ InBox c σ ini (s.t + clipped c s) ∧ σ * clipped c s ≤ σ * proposed s := by
  have hp := proposed_pos h
  rw [less_iff hD.sign h.dir] at hrun
  have hb := h.box
  have he := hD.eps
  unfold InBox at *
  unfold clipped
  by_cases hl : less c.eps c.fin (s.t + proposed s) (proposed s)
  · rw [if_pos hl]
    rw [less_iff hD.sign hp, mul_add] at hl
    rw [mul_sub, show s.t + (c.fin - s.t) = c.fin by ring]
    exact ⟨by linarith, ⟨hD.ahead, by linarith⟩, by linarith⟩
  · rw [if_neg hl]
    rw [less_iff hD.sign hp, mul_add] at hl
    push Not at hl
    rw [mul_add]
    exact ⟨hp, ⟨by linarith [hb.1], by linarith⟩, le_rfl⟩

theorem crossing_mem {c : Cfg K} {s : St K} {cp : K} (h : crossing c s = some cp) :
    cp ∈ c.cps ∧ Crosses (c.lamOf s.t) (c.lamOf (s.t + clipped c s)) cp := by
  refine ⟨List.mem_of_find?_eq_some h, ?_⟩
  have := List.find?_some h
  simpa [Crosses] using this

/-- The first trial points ahead and is not longer than the clipped step. -/
theorem firstTrial_spec {c : Cfg K} {σ τ ini : K} (hD : Directed c σ ini) (hP : Param c σ τ ini) {s : St K}
    (h : Inv c σ ini s) (hrun : less c.eps s.t c.fin s.dt) :
    0 < σ * firstTrial c s ∧ σ * firstTrial c s ≤ σ * clipped c s := by
  obtain ⟨h1, h2, -⟩ := clipped_spec hD h hrun
  unfold firstTrial
  rcases hc : crossing c s with _ | cp
  · exact ⟨h1, le_rfl⟩
  · obtain ⟨hm, hx⟩ := crossing_mem hc
    have h14 : (0 : K) < 1 / 10 ^ 14 := by positivity
    have hx' : (c.lamOf s.t - cp) * (c.lamOf (s.t + clipped c s) - cp) < 0 := by unfold Crosses at hx; linarith
    obtain ⟨g1, g2⟩ := hP.cps cp hm _ _ h.box h2 hx'
    show 0 < σ * (c.tOf cp - c.tOf (c.lamOf s.t)) ∧ _
    rw [hP.back _ h.box]
    -- order of the three points
    set p := s.t with hp
    set q := c.tOf cp with hq
    set r := s.t + clipped c s with hr
    have hττ : τ * τ = 1 := by rcases hP.sign with e | e <;> rw [e] <;> ring
    have hprod : (τ * c.lamOf p - τ * c.lamOf q) * (τ * c.lamOf r - τ * c.lamOf q) < 0 := by
      rw [g2]
      have : (τ * c.lamOf p - τ * cp) * (τ * c.lamOf r - τ * cp) = (τ * τ) * ((c.lamOf p - cp) * (c.lamOf r - cp)) := by ring
      rw [this, hττ, one_mul]; exact hx'
    have hpq : p ≠ q := by rintro e; rw [e] at hprod; simp at hprod
    have hqr : r ≠ q := by rintro e; rw [e] at hprod; simp at hprod
    have key : (p < q ∧ q < r) ∨ (r < q ∧ q < p) := by
      rcases lt_or_gt_of_ne hpq with a | a <;> rcases lt_or_gt_of_ne hqr with b | b
      · exfalso
        have := hP.mono _ _ h.box g1 a; have := hP.mono _ _ h2 g1 b
        nlinarith
      · left; exact ⟨a, b⟩
      · right; exact ⟨b, a⟩
      · exfalso
        have := hP.mono _ _ g1 h.box a; have := hP.mono _ _ g1 h2 b
        nlinarith
    have hcl : clipped c s = r - p := by rw [hr]; ring
    rw [hcl] at h1 ⊢
    rcases hD.sign with e | e <;> subst e <;> rcases key with ⟨a, b⟩ | ⟨a, b⟩ <;> constructor <;> linarith

/-- What one iteration does. -/
theorem iterate_spec {c : Cfg K} {rk : Stepper K} (hrk : Contract rk) {σ τ ini : K} (hD : Directed c σ ini)
    (hP : Param c σ τ ini) {s s' : St K} (h : Inv c σ ini s) (hit : iterate c rk s = .ok (some s')) :
    Inv c σ ini s' ∧ less c.eps s.t c.fin s.dt ∧ s'.count = s.count + 1 ∧ s.count + 1 < s.saved.length ∧
      s'.saved = s.saved.set (s.count + 1) (c.lamOf s'.t) ∧ s'.hit = (s.hit || (crossing c s).isSome) ∧
      (σ * s'.t ≤ σ * s.t + σ * firstTrial c s) ∧
      (0 < c.maxTrials → σ * s.t < σ * s'.t) ∧ σ * s.t ≤ σ * s'.t := by
  unfold iterate at hit
  by_cases hrun : less c.eps s.t c.fin s.dt
  swap
  · rw [if_pos hrun] at hit; cases hit
  rw [if_neg (not_not.2 hrun)] at hit
  obtain ⟨f1, f2⟩ := firstTrial_spec hD hP h hrun
  obtain ⟨c1, c2, -⟩ := clipped_spec hD h hrun
  have ts := trialLoop_spec hD.sign (f := rk s.count) (hrk.done s.count) (hrk.rejected s.count) c.maxTrials 0 s.t
    (firstTrial c s) f1
  simp only [] at ts hit
  generalize hR : trialLoop (rk s.count) c.maxTrials 0 s.t (firstTrial c s) = R at ts hit
  obtain ⟨r, n⟩ := R
  simp only [bind, Except.bind, pure, Except.pure, throw, throwThe, MonadExceptOf.throw] at hit
  by_cases hn : n = c.maxTrials
  · rw [if_pos hn] at hit; cases hit
  rw [if_neg hn] at hit
  by_cases hl : s.count + 1 < s.saved.length
  swap
  · simp only [hl, if_false] at hit; cases hit
  simp only [hl, if_true] at hit
  obtain rfl := Option.some.inj (Except.ok.inj hit)
  obtain ⟨t1, t2, t3, t4, t5⟩ := ts
  simp only [] at t1 t2 t3 t4 t5
  have hmove : σ * s.t ≤ σ * r.t ∧ σ * r.t ≤ σ * s.t + σ * firstTrial c s ∧ (0 < c.maxTrials → σ * s.t < σ * r.t) := by
    rcases hb : r.ok with _ | _
    · obtain ⟨e1, e2⟩ := t5 hb
      rw [e1]
      refine ⟨le_rfl, by linarith, fun hm => ?_⟩
      exfalso; omega
    · obtain ⟨d, d1, d2, d3⟩ := t4 hb
      rw [d3, mul_add]
      exact ⟨by linarith, by linarith, fun _ => by linarith⟩
  have hb := h.box
  unfold InBox at hb c2
  rw [mul_add] at c2
  refine ⟨⟨⟨by linarith [hmove.1], by linarith [hmove.2.1]⟩, t3, ?_⟩, hrun, rfl, hl, rfl, rfl, hmove.2.1, hmove.2.2, hmove.1⟩
  intro hh
  show 0 < σ * (if (crossing c s).isSome then clipped c s else s.dtTemp)
  by_cases hx : (crossing c s).isSome
  · rw [if_pos hx]; exact c1
  · rw [if_neg hx]
    apply h.temp
    have : (s.hit || (crossing c s).isSome) = true := hh
    simpa [hx] using this

/-- **C125** (interval, order). Every state of a run lies between the start and the end of the flow (up to the
tolerance of the comparison), every iteration moves towards the end, and the list of flow parameters contains
the flow parameter reached by every iteration. -/
theorem c125_interval {c : Cfg K} {rk : Stepper K} (hrk : Contract rk) {σ τ ini : K} (hD : Directed c σ ini)
    (hP : Param c σ τ ini) {s s' : St K} (h : Inv c σ ini s) (hr : Reach c rk s s') :
    InBox c σ ini s'.t ∧ σ * s.t ≤ σ * s'.t ∧ s.count ≤ s'.count ∧ s'.saved.length = s.saved.length ∧
      (∀ i ≤ s.count, s'.saved[i]? = s.saved[i]?) ∧
      (s.count < s'.count → s'.saved[s'.count]? = some (c.lamOf s'.t)) := by
  have key : Inv c σ ini s' ∧ σ * s.t ≤ σ * s'.t ∧ s.count ≤ s'.count ∧ s'.saved.length = s.saved.length ∧
      (∀ i ≤ s.count, s'.saved[i]? = s.saved[i]?) ∧
      (s.count < s'.count → s'.saved[s'.count]? = some (c.lamOf s'.t)) := by
    induction hr with
    | refl => exact ⟨h, le_rfl, le_rfl, rfl, fun _ _ => rfl, fun h => absurd h (lt_irrefl _)⟩
    | step _ hit ih =>
      obtain ⟨i1, i2, i3, i4, i5, -⟩ := ih
      obtain ⟨j1, -, j3, j4, j5, -, -, -, j9⟩ := iterate_spec hrk hD hP i1 hit
      refine ⟨j1, i2.trans j9, by omega, by rw [j5, List.length_set, i4], ?_, ?_⟩
      · intro i hi
        rw [j5, List.getElem?_set_ne (by omega), i5 i hi]
      · intro _
        rw [j3, j5, List.getElem?_set_self j4]
  exact ⟨key.1.box, key.2⟩

/-- **C125** (progress). With at least one allowed trial every completed iteration advances the flow. -/
theorem c125_progress_partial {c : Cfg K} {rk : Stepper K} (hrk : Contract rk) {σ τ ini : K} (hD : Directed c σ ini)
    (hP : Param c σ τ ini) {s s' s'' : St K} (h : Inv c σ ini s) (hr : Reach c rk s s')
    (hit : iterate c rk s' = .ok (some s'')) (hm : 0 < c.maxTrials) : σ * s'.t < σ * s''.t := by
  have : Inv c σ ini s' := by
    clear hit
    induction hr with
    | refl => exact h
    | step _ hit ih => exact (iterate_spec hrk hD hP ih hit).1
  exact (iterate_spec hrk hD hP this hit).2.2.2.2.2.2.2.1 hm

/-- **C125** (end). The loop ends by itself only at the end of the flow. -/
theorem c125_end {c : Cfg K} {rk : Stepper K} (hrk : Contract rk) {σ τ ini : K} (hD : Directed c σ ini)
    (hP : Param c σ τ ini) {s s' : St K} (h : Inv c σ ini s) (hr : Reach c rk s s')
    (hend : iterate c rk s' = .ok none) : |c.fin - s'.t| ≤ c.eps := by
  have hI : Inv c σ ini s' := by
    clear hend
    induction hr with
    | refl => exact h
    | step _ hit ih => exact (iterate_spec hrk hD hP ih hit).1
  have hn : ¬ less c.eps s'.t c.fin s'.dt := by
    intro hl
    unfold iterate at hend
    rw [if_neg (not_not.2 hl)] at hend
    simp only [bind, Except.bind, pure, Except.pure, throw, throwThe, MonadExceptOf.throw] at hend
    split_ifs at hend <;> cases hend
  rw [less_iff hD.sign hI.dir] at hn
  push Not at hn
  have hb := hI.box.2
  rcases hD.sign with e | e <;> subst e <;> rw [abs_le] <;> constructor <;> linarith

end Verif.Boost
