import Verif.Flow.Spec
import Verif.StepControl.Props
import Verif.GridMap.Props

/-! The step routine `rkqs` (Verif/StepControl) satisfies the contract the flow loop relies on. -/
namespace Verif.Flow

open StepControl

/-- `rk` is what `rkqs` computes (ODE_solvers.hpp:318-319 and 418-420) for the parametrisation
`tOf`, `lamOf` and some behaviour `err` of the error estimate, whenever the call returns. -/
def IsRkqs (s : Settings) (tOf lamOf : ℝ → ℝ) (err : Nat → ℝ → Nat → Option ℝ → Err) (rk : Stepper ℝ) : Prop :=
  ∀ i lam h, ∃ fuel t e rej n,
    run s (err i lam) fuel (tOf (lam + h) - tOf lam) = some (.accept (some t) e rej n) ∧
    rk i lam h = ⟨lamOf (tOf lam + t), lamOf (tOf lam + t) - lamOf (tOf lam),
      lamOf (tOf lam + t + nextStep s t e rej) - lamOf (tOf lam + t)⟩

/-- More fuel does not change the result of the step loop. -/
theorem loop_mono {s : Settings} {err : Nat → Option ℝ → Err} {a fuel : Nat} :
    ∀ {n t r ex}, StepControl.loop s err a fuel n t r = some ex →
      ∀ m, StepControl.loop s err a (fuel + m) n t r = some ex := by
  induction fuel with
  | zero => intro n t r ex h; simp [StepControl.loop] at h
  | succ fuel ih =>
    intro n t r ex h m
    rw [show fuel + 1 + m = (fuel + m) + 1 by omega]
    rw [StepControl.loop] at h ⊢
    simp only at h ⊢
    split_ifs at h ⊢ with h1 h2 h3
    · exact h
    · exact h
    · exact h
    · exact ih h m

/-- The step accepted by `rkqs` has the direction of the trial step and is at most as long. -/
theorem rkqs_step {s : Settings} (hmin : 0 < s.minStep) {err : Nat → Option ℝ → Err}
    (hnum : ∀ n t, err n (some t) ≠ .nan) {t0 t : ℝ} {fuel : Nat} {e rej n}
    (h : run s err fuel t0 = some (.accept (some t) e rej n)) : 0 ≤ t * t0 ∧ |t| ≤ |t0| := by
  by_cases ht0 : t0 = 0
  · subst ht0
    cases fuel with
    | zero => simp [run, StepControl.loop] at h
    | succ fuel =>
      simp [run, StepControl.loop, stepMinimal, hmin.le] at h
      rw [← h.1]; simp
  · obtain ⟨k, hk⟩ := c13_attempt_bound_exists hmin t0
    obtain ⟨ex, h1, h2, _⟩ := c13_terminates hmin hnum ht0 k hk
    have e1 : run s err (k + 1 + fuel) t0 = some ex := loop_mono h1 fuel
    have e2 : run s err (fuel + (k + 1)) t0 = some (.accept (some t) e rej n) := loop_mono h (k + 1)
    rw [Nat.add_comm, e2] at e1
    obtain ⟨⟨⟨x, hx, hdir, hle, _⟩, _⟩, _⟩ := h2 _ _ _ _ (Option.some.inj e1).symm
    cases hx
    exact ⟨by linarith [mul_comm t t0], hle⟩

/-- Every run of the flow with `rkqs` and a parametrisation that is monotone on an interval of auxiliary
values containing those of all flow parameters satisfies the contract, provided no error estimate is NaN. -/
theorem contract_of_rkqs {s : Settings} (hmin : 0 < s.minStep) {tOf lamOf : ℝ → ℝ}
    (hinv : ∀ x, lamOf (tOf x) = x) {D : Set ℝ} (hD : D.OrdConnected) (htD : ∀ x, tOf x ∈ D)
    (hmono : MonotoneOn lamOf D ∨ AntitoneOn lamOf D)
    {err : Nat → ℝ → Nat → Option ℝ → Err} (hnum : ∀ i lam n t, err i lam n (some t) ≠ .nan)
    {rk : Stepper ℝ} (hrk : IsRkqs s tOf lamOf err rk) : Contract rk := by
  constructor
  · intro i lam h
    obtain ⟨fuel, t, e, rej, n, _, h2⟩ := hrk i lam h
    rw [h2]; simp only [hinv]; ring
  · intro i lam h
    obtain ⟨fuel, t, e, rej, n, h1, h2⟩ := hrk i lam h
    obtain ⟨hd, hle⟩ := rkqs_step hmin (hnum i lam) h1
    rw [h2]
    simp only [hinv]
    set t0 := tOf (lam + h) - tOf lam with ht0
    have hend : lamOf (tOf lam + t0) = lam + h := by
      rw [ht0, show tOf lam + (tOf (lam + h) - tOf lam) = tOf (lam + h) by ring, hinv]
    have h0 : lamOf (tOf lam + 0) = lam := by rw [add_zero, hinv]
    -- t lies between 0 and t0
    have hbet : (0 ≤ t ∧ t ≤ t0) ∨ (t0 ≤ t ∧ t ≤ 0) := by
      rcases le_total 0 t0 with hp | hp
      · left
        have hu : t ≤ t0 := (le_abs_self t).trans (hle.trans (abs_of_nonneg hp).le)
        refine ⟨?_, hu⟩
        rcases hp.eq_or_lt with e0 | hpos
        · rw [← e0, abs_zero] at hle
          exact (abs_eq_zero.mp (le_antisymm hle (abs_nonneg t))).ge
        · exact nonneg_of_mul_nonneg_left hd hpos
      · right
        have hl : t0 ≤ t := by have := neg_abs_le t; rw [abs_of_nonpos hp] at hle; linarith
        refine ⟨hl, ?_⟩
        rcases hp.eq_or_lt with e0 | hneg
        · rw [e0, abs_zero] at hle
          exact (abs_eq_zero.mp (le_antisymm hle (abs_nonneg t))).le
        · by_contra hc
          push Not at hc
          have := mul_neg_of_pos_of_neg hc hneg
          linarith
    have hm0 : tOf lam + 0 ∈ D := by rw [add_zero]; exact htD lam
    have hm1 : tOf lam + t0 ∈ D := by
      rw [ht0, show tOf lam + (tOf (lam + h) - tOf lam) = tOf (lam + h) by ring]; exact htD _
    have hm : tOf lam + t ∈ D := by
      rcases hbet with ⟨b1, b2⟩ | ⟨b1, b2⟩
      · exact hD.out hm0 hm1 ⟨by linarith, by linarith⟩
      · exact hD.out hm1 hm0 ⟨by linarith, by linarith⟩
    have hval : (0 ≤ lamOf (tOf lam + t) - lam ∧ lamOf (tOf lam + t) - lam ≤ h) ∨
        (h ≤ lamOf (tOf lam + t) - lam ∧ lamOf (tOf lam + t) - lam ≤ 0) := by
      rcases hmono with hm' | hm' <;> rcases hbet with ⟨b1, b2⟩ | ⟨b1, b2⟩
      · left
        have p := hm' hm0 hm (add_le_add (le_refl (tOf lam)) b1)
        have q := hm' hm hm1 (add_le_add (le_refl (tOf lam)) b2)
        constructor <;> linarith
      · right
        have p := hm' hm1 hm (add_le_add (le_refl (tOf lam)) b1)
        have q := hm' hm hm0 (add_le_add (le_refl (tOf lam)) b2)
        constructor <;> linarith
      · right
        have p := hm' hm0 hm (add_le_add (le_refl (tOf lam)) b1)
        have q := hm' hm hm1 (add_le_add (le_refl (tOf lam)) b2)
        constructor <;> linarith
      · left
        have p := hm' hm1 hm (add_le_add (le_refl (tOf lam)) b1)
        have q := hm' hm hm0 (add_le_add (le_refl (tOf lam)) b2)
        constructor <;> linarith
    rcases hval with ⟨a, b⟩ | ⟨a, b⟩
    · exact ⟨mul_nonneg a (a.trans b), by rw [abs_of_nonneg a, abs_of_nonneg (a.trans b)]; exact b⟩
    · exact ⟨mul_nonneg_of_nonpos_of_nonpos b (a.trans b),
        by rw [abs_of_nonpos b, abs_of_nonpos (a.trans b)]; linarith⟩

/-- The square-root parametrisation used by the flow. -/
theorem contract_sqrt {s : Settings} (hmin : 0 < s.minStep) {err : Nat → ℝ → Nat → Option ℝ → Err}
    (hnum : ∀ i lam n t, err i lam n (some t) ≠ .nan) {rk : Stepper ℝ}
    (hrk : IsRkqs s GridMap.sqrtT GridMap.sqrtLam err rk) : Contract rk :=
  contract_of_rkqs hmin GridMap.c20_sqrt.back (Set.ordConnected_Ioo (a := -1) (b := 1))
    (fun x => ⟨(GridMap.c20_sqrt.range x).1, (GridMap.c20_sqrt.range x).2⟩)
    (Or.inl (StrictMonoOn.monotoneOn fun a ha b hb hab =>
      GridMap.c20_sqrt.ofT_strictMono a b ha.1 hab hb.2)) hnum hrk

/-- The linear parametrisation. -/
theorem contract_linear {s : Settings} (hmin : 0 < s.minStep) {err : Nat → ℝ → Nat → Option ℝ → Err}
    (hnum : ∀ i lam n t, err i lam n (some t) ≠ .nan) {rk : Stepper ℝ}
    (hrk : IsRkqs s GridMap.linT GridMap.linLam err rk) : Contract rk :=
  contract_of_rkqs hmin (fun _ => rfl) Set.ordConnected_univ (fun _ => trivial)
    (Or.inl fun _ _ _ _ h => h) hnum hrk

end Verif.Flow
