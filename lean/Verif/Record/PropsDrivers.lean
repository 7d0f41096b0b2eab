import Mathlib.Tactic.Ring
import Verif.Record.Props

/-
C138: which evaluations of a flow save intermediate results.
-/
namespace Verif.Record

open MfRG

theorem calls_rk (n : ℕ) : ∀ c : Ctr, 1 ≤ c.rk → (∀ x ∈ (calls n c).1, 1 ≤ x.rk) ∧ 1 ≤ (calls n c).2.rk := by
  induction n with
  | zero => intro c h; exact ⟨by simp [calls], h⟩
  | succ n ih =>
    intro c h
    obtain ⟨h1, h2⟩ := ih ⟨c.it, c.rk + 1⟩ (by simp)
    refine ⟨?_, h2⟩
    intro x hx
    rcases List.mem_cons.mp hx with rfl | hx
    · exact h
    · exact h1 x hx

theorem ownAttempts_rk (s k : ℕ) : ∀ c : Ctr, 1 ≤ c.rk →
    (∀ x ∈ (ownAttempts s k c).1, 1 ≤ x.rk) ∧ 1 ≤ (ownAttempts s k c).2.rk := by
  induction k with
  | zero => intro c h; exact ⟨by simp [ownAttempts], h⟩
  | succ k ih =>
    intro c h
    obtain ⟨h1, h2⟩ := ih ⟨c.it, 1⟩ (le_refl _)
    refine ⟨?_, h2⟩
    intro x hx
    rcases List.mem_append.mp hx with hx | hx
    · exact (calls_rk _ c h).1 x hx
    · exact h1 x hx

theorem own_rk (s : ℕ) (as : List ℕ) : ∀ (i : ℕ) (c : Ctr), 1 ≤ c.rk → ∀ x ∈ own s i as c, 1 ≤ x.rk := by
  induction as with
  | nil => intro i c _ x hx; simp [own] at hx
  | cons a as ih =>
    intro i c h x hx
    have hq := ownAttempts_rk s a ⟨i, c.rk + 1⟩ (by simp)
    rcases List.mem_append.mp hx with hx | hx
    · rcases List.mem_append.mp hx with hx | hx
      · simp [calls] at hx
        rw [hx]
        exact h
      · exact hq.1 x hx
    · exact ih (i + 1) _ hq.2 x hx

/-- C138, built-in driver: for any number of stages, of steps and of attempts in each step, the evaluation that saves
is the first one of a flow that starts at iteration zero; in a continued flow none does. -/
theorem c138_builtin (s i : ℕ) (as : List ℕ) (hne : as ≠ []) :
    ∃ rest, own s i as fresh = ⟨i, 0⟩ :: rest ∧ (saves ⟨i, 0⟩ = true ↔ i = 0) ∧ ∀ x ∈ rest, saves x = false := by
  cases as with
  | nil => exact absurd rfl hne
  | cons a as =>
    refine ⟨(ownAttempts s a ⟨i, 1⟩).1 ++ own s (i + 1) as (ownAttempts s a ⟨i, 1⟩).2, rfl, by simp [saves], ?_⟩
    have hq := ownAttempts_rk s a ⟨i, 1⟩ (le_refl _)
    intro x hx
    have : 1 ≤ x.rk := by
      rcases List.mem_append.mp hx with hx | hx
      · exact hq.1 x hx
      · exact own_rk s as (i + 1) _ hq.2 x hx
    have h0 : (x.rk == 0) = false := by rw [beq_eq_false_iff_ne]; omega
    simp [saves, h0]

theorem calls_it (n : ℕ) : ∀ c : Ctr, (∀ x ∈ (calls n c).1, x.it = c.it) ∧ (calls n c).2.it = c.it := by
  induction n with
  | zero => intro c; exact ⟨by simp [calls], rfl⟩
  | succ n ih =>
    intro c
    obtain ⟨h1, h2⟩ := ih ⟨c.it, c.rk + 1⟩
    refine ⟨?_, h2⟩
    intro x hx
    rcases List.mem_cons.mp hx with rfl | hx
    · rfl
    · exact h1 x hx

theorem boostAttempts_it (s k : ℕ) : ∀ c : Ctr,
    (∀ x ∈ (boostAttempts s k c).1, x.it = c.it) ∧ (boostAttempts s k c).2.it = c.it := by
  induction k with
  | zero => intro c; exact ⟨by simp [boostAttempts], rfl⟩
  | succ k ih =>
    intro c
    obtain ⟨h1, h2⟩ := ih ⟨c.it, 0⟩
    refine ⟨?_, h2⟩
    intro x hx
    rcases List.mem_append.mp hx with hx | hx
    · exact (calls_it _ c).1 x hx
    · exact h1 x hx

theorem boost_it (s : ℕ) (as : List ℕ) : ∀ (i : ℕ) (c : Ctr), 1 ≤ c.it → ∀ x ∈ boost s i as c, 1 ≤ x.it := by
  induction as with
  | nil => intro i c _ x hx; simp [boost] at hx
  | cons a as ih =>
    intro i c h x hx
    rcases List.mem_append.mp hx with hx | hx
    · rw [(boostAttempts_it s a c).1 x hx]; exact h
    · exact ih (i + 1) _ (by simp) x hx

theorem calls_saves (n : ℕ) (hn : 1 ≤ n) : (calls n ⟨0, 0⟩).1.map saves = true :: List.replicate (n - 1) false := by
  obtain ⟨n, rfl⟩ : ∃ m, n = m + 1 := ⟨n - 1, by omega⟩
  simp only [calls, List.map_cons]
  congr 1
  have h := (calls_rk n ⟨0, 1⟩ (le_refl _)).1
  have hl : ∀ (n : ℕ) (c : Ctr), (calls n c).1.length = n := by
    intro n
    induction n with
    | zero => intro c; rfl
    | succ n ih => intro c; simp [calls, ih]
  rw [List.eq_replicate_iff]
  refine ⟨by simp [hl], ?_⟩
  intro b hb
  obtain ⟨x, hx, rfl⟩ := List.mem_map.mp hb
  have := h x hx
  have h0 : (x.rk == 0) = false := by rw [beq_eq_false_iff_ne]; omega
  simp [saves, h0]

theorem boostAttempts_saves (s : ℕ) (hs : 1 ≤ s) (k : ℕ) : (boostAttempts s k ⟨0, 0⟩).1.map saves =
    (List.replicate k (true :: List.replicate (s - 1) false)).flatten := by
  induction k with
  | zero => rfl
  | succ k ih =>
    simp only [boostAttempts, List.map_append, calls_saves s hs, ih, List.replicate_succ, List.flatten_cons]

/-- C138, Boost driver: the evaluations that save are the first stages of all attempts of the first step, whatever
the number of the iteration at which the flow starts. -/
theorem c138_boost (s i a : ℕ) (as : List ℕ) (hs : 1 ≤ s) :
    ∃ rest, (boost s i (a :: as) fresh).map saves =
      (List.replicate a (true :: List.replicate (s - 1) false)).flatten ++ rest ∧ ∀ b ∈ rest, b = false := by
  refine ⟨(boost s (i + 1) as ⟨i + 1, (boostAttempts s a fresh).2.rk⟩).map saves, ?_, ?_⟩
  · simp only [boost, List.map_append, fresh, boostAttempts_saves s hs]
  · intro b hb
    obtain ⟨x, hx, rfl⟩ := List.mem_map.mp hb
    have := boost_it s as (i + 1) _ (by simp) x hx
    have h0 : (x.it == 0) = false := by rw [beq_eq_false_iff_ne]; omega
    simp [saves, h0]

/-- C138 fails for the Boost driver: a flow that is continued at any later iteration saves as if it began there, and
so replaces the intermediate results of the first iteration. -/
theorem c138_boost_refuted (s i a : ℕ) (as : List ℕ) (hs : 1 ≤ s) (ha : 1 ≤ a) (_hi : 1 ≤ i) :
    ∃ x ∈ boost s i (a :: as) fresh, saves x = true := by
  obtain ⟨rest, h, _⟩ := c138_boost s i a as hs
  obtain ⟨a, rfl⟩ : ∃ m, a = m + 1 := ⟨a - 1, by omega⟩
  have : true ∈ (boost s i ((a + 1) :: as) fresh).map saves := by
    rw [h]
    simp [List.replicate_succ]
  obtain ⟨x, hx, hx'⟩ := List.mem_map.mp this
  exact ⟨x, hx, hx'⟩

variable {V S : Type} [AddCommGroup V] [AddCommGroup S]

theorem evalAll_off (D : ℕ → Diagrams V S) (c : Cfg) (wanted : Bool) (layers : ℕ) (h1 : 1 ≤ c.nloops)
    (ks : List Ctr) (h : ∀ x ∈ ks, saves x = false) : ∀ (j : ℕ) (d : Dir V S),
    evalAll D c wanted layers j ks d = .ok d := by
  induction ks with
  | nil => intro j d; rfl
  | cons k ks ih =>
    intro j d
    have hk : ¬ (wanted = true ∧ k.it = 0 ∧ k.rk = 0) := by
      rintro ⟨_, h2, h3⟩
      have := h k (by simp)
      simp [saves, h2, h3] at this
    have hr : ∃ x, rhs (D j).eqs c = .ok x := by
      simp only [rhs, show c.nloops ≥ 1 from h1, if_true]
      by_cases hc : c.seCorr = true
      · rw [if_pos hc]; exact ⟨_, rfl⟩
      · rw [if_neg hc]; exact ⟨_, rfl⟩
    obtain ⟨x, hx⟩ := hr
    simp only [evalAll, c138_untouched (D j) c wanted k.it k.rk layers d hk, hx]
    exact ih (fun y hy => h y (by simp [hy])) (j + 1) d

/-- C138, a whole flow with the built-in driver: when it ends, the directory is what the first evaluation left; a
continued flow does not change it. -/
theorem c138_flow (D : ℕ → Diagrams V S) (c : Cfg) (layers s i : ℕ) (as : List ℕ) (hne : as ≠ [])
    (h1 : 1 ≤ c.nloops) (d : Dir V S) :
    (i = 0 → evalAll D c true layers 0 (own s i as fresh) d =
      (rhsSave (D 0) c true 0 0 layers d).map Prod.snd) ∧
    (1 ≤ i → evalAll D c true layers 0 (own s i as fresh) d = .ok d) := by
  obtain ⟨rest, hr, hs, hf⟩ := c138_builtin s i as hne
  constructor
  · rintro rfl
    rw [hr]
    simp only [evalAll]
    cases he : rhsSave (D 0) c true 0 0 layers d with
    | error e => rfl
    | ok p =>
      show evalAll D c true layers 1 rest p.2 = _
      rw [evalAll_off D c true layers h1 rest hf]
      rfl
  · intro hi
    refine evalAll_off D c true layers h1 _ ?_ 0 d
    rw [hr]
    intro x hx
    rcases List.mem_cons.mp hx with rfl | hx
    · rw [Bool.eq_false_iff]
      intro h
      have := hs.mp h
      omega
    · exact hf x hx

theorem calls_length (n : ℕ) : ∀ c : Ctr, (calls n c).1.length = n := by
  induction n with
  | zero => intro c; rfl
  | succ n ih => intro c; simp [calls, ih]

/-- C138, number of evaluations: in the built-in driver every step costs one evaluation and in addition one for each further stage of each attempt; in the Boost
driver all stages of every attempt. -/
theorem c138_evaluations (s : ℕ) (as : List ℕ) : ∀ (i : ℕ) (c : Ctr),
    (own s i as c).length = as.length + as.sum * (s - 1) ∧ (boost s i as c).length = as.sum * s := by
  have h1 : ∀ k c, (ownAttempts s k c).1.length = k * (s - 1) := by
    intro k
    induction k with
    | zero => intro c; simp [ownAttempts]
    | succ k ih => intro c; simp only [ownAttempts, List.length_append, calls_length, ih]; ring
  have h2 : ∀ k c, (boostAttempts s k c).1.length = k * s := by
    intro k
    induction k with
    | zero => intro c; simp [boostAttempts]
    | succ k ih => intro c; simp only [boostAttempts, List.length_append, calls_length, ih]; ring
  induction as with
  | nil => intro i c; simp [own, boost]
  | cons a as ih =>
    intro i c
    constructor
    · simp only [own, ownStep, List.length_append, calls_length, h1, (ih _ _).1, List.length_cons, List.sum_cons]; ring
    · simp only [boost, List.length_append, h2, (ih _ _).2, List.sum_cons]; ring

/-- Six stages, two steps, one rejected attempt in the first. -/
example : (own 6 0 [2, 1] fresh).map saves = true :: List.replicate 16 false := by decide

example : own 6 3 [1, 1] fresh ≠ [] ∧ ∀ x ∈ own 6 3 [1, 1] fresh, saves x = false := by decide

/-- The Boost driver, continued at iteration five. -/
example : ((boost 6 5 [2, 1] fresh).map saves).count true = 2 := by decide

end Verif.Record
