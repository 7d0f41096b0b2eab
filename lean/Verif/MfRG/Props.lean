import Verif.MfRG.Spec
import Mathlib.Tactic.Abel
import Mathlib.Tactic.NormNum
import Mathlib.Tactic.IntervalCases

/-
C67: the right-hand side of the multiloop flow.
-/
namespace Verif.MfRG

variable {V S : Type} [AddCommGroup V] [AddCommGroup S]

theorem below_iff (x : Option ℚ) (t : ℚ) : below x t = true ↔ ∃ y, x = some y ∧ y < t := by
  cases x <;> simp [below]

theorem above_iff (x : Option ℚ) (t : ℚ) : above x t = true ↔ ∃ y, x = some y ∧ t < y := by
  cases x <;> simp [above]

theorem sumTo_succ (E : Eqs V S) (σ : S) (m : ℕ) :
    sumTo E σ (m + 1) = sumTo E σ m + contribution E σ (m + 1) := by
  simp [sumTo, Finset.sum_Icc_succ_top]

/-- The variables of the loop over loop orders hold what the recursion says about order `i`. -/
def Holds (E : Eqs V S) (σ : S) (i : ℕ) (s : Loop V) : Prop :=
  s.total = sumTo E σ i ∧ s.T = contribution E σ i ∧ (s.L, s.R) = (orders E σ (i - 1)).2 ∧
    s.ctbar = ∑ j ∈ Finset.Icc 3 i, centralPart E σ j

theorem holds_body {E : Eqs V S} {σ : S} {i : ℕ} (hi : 2 ≤ i) {s : Loop V} (h : Holds E σ i s) :
    Holds E σ (i + 1) (s.body E) := by
  obtain ⟨k, rfl⟩ : ∃ k, i = k + 2 := ⟨i - 2, by omega⟩
  obtain ⟨h1, h2, h3, h4⟩ := h
  have e1 : orders E σ (k + 2) =
      (E.left (contribution E σ (k + 2)) + E.central s.L s.R + E.right (contribution E σ (k + 2)),
        E.reorder (E.left (contribution E σ (k + 2)), E.right (contribution E σ (k + 2)))) := by
    have hL := (Prod.mk.inj h3).1
    have hR := (Prod.mk.inj h3).2
    simp only [Nat.add_sub_cancel, show k + 2 - 1 = k + 1 from rfl] at hL hR
    rw [hL, hR]
    rfl
  have e2 : contribution E σ (k + 3) = (orders E σ (k + 2)).1 := rfl
  refine ⟨?_, ?_, ?_, ?_⟩
  · rw [sumTo_succ, e2, e1, ← h1, ← h2]; rfl
  · rw [e2, e1, ← h2]; rfl
  · show _ = (orders E σ (k + 2)).2
    rw [e1, ← h2]
    rfl
  · rw [Finset.sum_Icc_succ_top (by omega), ← h4]
    have : centralPart E σ (k + 2 + 1) = E.central s.L s.R := by
      have hL := (Prod.mk.inj h3).1
      have hR := (Prod.mk.inj h3).2
      show E.central (orders E σ (k + 1)).2.1 (orders E σ (k + 1)).2.2 = _
      rw [hL, hR]
      rfl
    rw [this]
    rfl

theorem done_iff {E : Eqs V S} {c : Cfg} {σ : S} {i : ℕ} {s : Loop V} (h : Holds E σ i s) :
    s.done E c = true ↔ Small E c σ i := by
  simp only [Loop.done, Bool.or_eq_true, below_iff, Small, h.1, h.2.1]

theorem go_spec (E : Eqs V S) (c : Cfg) (σ : S) (k : ℕ) :
    ∀ (i : ℕ) (s : Loop V), 2 ≤ i → Holds E σ i s →
      ∃ m, i ≤ m ∧ m ≤ i + k ∧ Holds E σ m (Loop.go E c k s) ∧
        (∀ j, i < j → j < m → ¬ Small E c σ j) ∧ (m = i + k ∨ (i < m ∧ Small E c σ m)) := by
  induction k with
  | zero =>
    intro i s hi h
    exact ⟨i, le_refl _, le_refl _, h, fun j h1 h2 => by omega, Or.inl rfl⟩
  | succ k ih =>
    intro i s hi h
    have hb := holds_body hi h
    simp only [Loop.go]
    by_cases hd : (s.body E).done E c = true
    · rw [if_pos hd]
      exact ⟨i + 1, by omega, by omega, hb, fun j h1 h2 => by omega,
        Or.inr ⟨by omega, (done_iff hb).mp hd⟩⟩
    · rw [if_neg hd]
      obtain ⟨m, h1, h2, h3, h4, h5⟩ := ih (i + 1) _ (by omega) hb
      refine ⟨m, by omega, by omega, h3, fun j hj1 hj2 => ?_, ?_⟩
      · by_cases hj : j = i + 1
        · subst hj
          exact fun hs => hd ((done_iff hb).mpr hs)
        · exact h4 j (by omega) hj2
      · rcases h5 with h5 | ⟨h5, h6⟩
        · exact Or.inl (by omega)
        · exact Or.inr ⟨by omega, h6⟩

/-- C67, one pass.  The vertex is the sum of the contributions of all loop orders up to the one at which the
configured number of loops or the tolerance stops — this order is determined by the recursion and the tolerances
alone — and the vertex handed to the self-energy correction is the sum of the central parts of these orders. -/
theorem c67_pass (E : Eqs V S) (c : Cfg) (σ : S) (hn : 1 ≤ c.nloops) :
    ∃ m, StopsAt E c σ m ∧
      vertexPass E c σ = (sumTo E σ m, ∑ i ∈ Finset.Icc 3 m, centralPart E σ i) := by
  have one : sumTo E σ 1 = E.one σ := by simp [sumTo, contribution, orders]
  have two : sumTo E σ 2 = E.one σ + (E.left (E.one σ) + E.right (E.one σ)) := by
    rw [sumTo_succ, one]; rfl
  simp only [vertexPass]
  by_cases h2 : c.nloops ≥ 2
  · rw [if_pos h2]
    have hold : Holds E σ 2 ⟨E.one σ + (E.left (E.one σ) + E.right (E.one σ)),
        E.left (E.one σ) + E.right (E.one σ), (E.reorder (E.left (E.one σ), E.right (E.one σ))).1,
        (E.reorder (E.left (E.one σ), E.right (E.one σ))).2, 0⟩ :=
      ⟨two.symm, rfl, rfl, by simp⟩
    by_cases h3 : c.nloops ≥ 3
    · rw [if_pos h3]
      obtain ⟨m, h4, h5, h6, h7, h8⟩ := go_spec E c σ (c.nloops - 2).toNat 2 _ (le_refl _) hold
      refine ⟨m, ⟨by omega, by omega, fun i h1 hm => h7 i (by omega) hm, ?_⟩, ?_⟩
      · rcases h8 with h8 | ⟨h8, h9⟩
        · exact Or.inl (by omega)
        · exact Or.inr ⟨by omega, h9⟩
      · rw [← h6.1, ← h6.2.2.2]
    · rw [if_neg h3]
      refine ⟨2, ⟨by omega, by omega, fun i h1 hm => by omega, Or.inl (by omega)⟩, ?_⟩
      rw [two]; simp
  · rw [if_neg h2]
    refine ⟨1, ⟨by omega, by omega, fun i h1 hm => by omega, Or.inl (by omega)⟩, ?_⟩
    rw [one]; simp

/-- The order at which a pass stops is unique. -/
theorem stopsAt_unique {E : Eqs V S} {c : Cfg} {σ : S} {m m' : ℕ} (h : StopsAt E c σ m)
    (h' : StopsAt E c σ m') : m = m' := by
  obtain ⟨_, a2, a3, a4⟩ := h
  obtain ⟨_, b2, b3, b4⟩ := h'
  rcases Nat.lt_trichotomy m m' with hlt | heq | hgt
  · rcases a4 with a4 | ⟨a4, a5⟩
    · omega
    · exact absurd a5 (b3 m a4 hlt)
  · exact heq
  · rcases b4 with b4 | ⟨b4, b5⟩
    · omega
    · exact absurd b5 (a3 m' b4 hgt)

/-- The passes one after the other. -/
def passes (E : Eqs V S) (c : Cfg) : ℕ → Iter V S
  | 0 => ⟨0, E.oneSE, [], [], 0, some (10 ^ 10), some 1⟩
  | k + 1 => (passes E c k).pass E c

/-- Another self-energy iteration is due after `x`: both measures of its correction are numbers above the
tolerances. -/
def Due (c : Cfg) (x : Iter V S) : Prop :=
  (∃ a, x.abs = some a ∧ c.seTolAbs < a) ∧ ∃ r, x.rel = some r ∧ c.seTolRel < r

theorem again_iff (c : Cfg) (x : Iter V S) :
    x.again c = true ↔ 3 ≤ c.nloops ∧ x.counter < c.nmax ∧ Due c x := by
  simp only [Iter.again, Bool.and_eq_true, decide_eq_true_eq, above_iff, Due]
  constructor
  · rintro ⟨⟨⟨h1, h2⟩, h3⟩, h4⟩; exact ⟨by omega, h2, h3, h4⟩
  · rintro ⟨h1, h2, h3, h4⟩; exact ⟨⟨⟨by omega, h2⟩, h3⟩, h4⟩

theorem passes_counter (E : Eqs V S) (c : Cfg) (h : 3 ≤ c.nloops) (k : ℕ) : (passes E c k).counter = k := by
  induction k with
  | zero => rfl
  | succ k ih => rw [passes, Iter.pass_counter E c _ (by omega), ih]

theorem iter_go (E : Eqs V S) (c : Cfg) (h3 : 3 ≤ c.nloops) :
    ∀ (d k : ℕ), c.nmax - k = d → ∃ m, k ≤ m ∧ (passes E c k).go E c = passes E c m ∧ (m ≤ c.nmax ∨ m = k) ∧
      (∀ j, k ≤ j → j < m → Due c (passes E c j)) ∧ (c.nmax ≤ m ∨ ¬ Due c (passes E c m)) := by
  intro d
  induction d with
  | zero =>
    intro k hk
    have hf : ¬ (passes E c k).again c = true := by
      rw [again_iff, passes_counter E c h3]; omega
    exact ⟨k, le_refl _, by rw [Iter.go, dif_neg hf], Or.inr rfl, fun j h1 h2 => by omega, Or.inl (by omega)⟩
  | succ d ih =>
    intro k hk
    by_cases hf : (passes E c k).again c = true
    · have hf' := (again_iff c _).mp hf
      obtain ⟨m, h1, h2, h4, h5, h6⟩ := ih (k + 1) (by omega)
      refine ⟨m, by omega, ?_, Or.inl ?_, fun j hj1 hj2 => ?_, h6⟩
      · rw [Iter.go, dif_pos hf]; exact h2
      · rcases h4 with h4 | h4 <;> omega
      · by_cases hj : j = k
        · subst hj; exact hf'.2.2
        · exact h5 j (by omega) hj2
    · refine ⟨k, le_refl _, by rw [Iter.go, dif_neg hf], Or.inr rfl, fun j h1 h2 => by omega, ?_⟩
      rw [again_iff, passes_counter E c h3] at hf
      by_cases hm : k < c.nmax
      · exact Or.inr fun hd => hf ⟨h3, hm, hd⟩
      · exact Or.inl (by omega)

/-- C67, self-energy iterations (at least three loops, corrections enabled).  The result is that of pass number
`m`, where `m` is at least one and at most the configured maximum; every pass but the last had a correction above
both tolerances, and the iteration ends only because the maximum is reached or because the correction of the last
pass is not above both tolerances.  The reported number of iterations is `m`. -/
theorem c67_iterations (E : Eqs V S) (c : Cfg) (h3 : 3 ≤ c.nloops) (hc : c.seCorr = true) (hm : 1 ≤ c.nmax) :
    ∃ m, 1 ≤ m ∧ m ≤ c.nmax ∧ rhs E c = .ok (passes E c m) ∧ (passes E c m).counter = m ∧
      (∀ j, 1 ≤ j → j < m → Due c (passes E c j)) ∧ (m = c.nmax ∨ ¬ Due c (passes E c m)) := by
  obtain ⟨m, h1, h2, h4, h5, h6⟩ := iter_go E c h3 _ 1 rfl
  have hle : m ≤ c.nmax := by rcases h4 with h4 | h4 <;> omega
  refine ⟨m, h1, hle, ?_, passes_counter E c h3 m, h5, ?_⟩
  · have : c.nloops ≥ 1 := by omega
    rw [← h2]
    simp only [rhs, this, if_true, hc]
    rfl
  · rcases h6 with h6 | h6
    · exact Or.inl (by omega)
    · exact Or.inr h6

/-- C67, the derivatives that a pass yields.  The vertex is the sum over loop orders for the self-energy
derivative with which the pass began; the self-energy derivative is made from the one-loop term plus the correction from
the central parts of the same orders, and without acceleration it is exactly that. -/
theorem c67_result (E : Eqs V S) (c : Cfg) (h3 : 3 ≤ c.nloops) (k : ℕ) :
    ∃ m, StopsAt E c (passes E c k).sigma m ∧
      (passes E c (k + 1)).vertex = sumTo E (passes E c k).sigma m ∧
      (c.seCorr = true →
        (passes E c (k + 1)).evals = (passes E c k).evals ++ [(sumTo E (passes E c k).sigma m,
          E.oneSE + E.corr (∑ i ∈ Finset.Icc 3 m, centralPart E (passes E c k).sigma i))] ∧
        ((∀ a b v s, E.accel (a ++ [(v, s)]) b = s) → (passes E c (k + 1)).sigma =
          E.oneSE + E.corr (∑ i ∈ Finset.Icc 3 m, centralPart E (passes E c k).sigma i))) ∧
      (c.seCorr = false → (passes E c (k + 1)).sigma = (passes E c k).sigma) := by
  obtain ⟨m, h1, h2⟩ := c67_pass E c (passes E c k).sigma (by omega)
  have h3' : c.nloops ≥ 3 := h3
  refine ⟨m, h1, ?_, ?_, ?_⟩
  · simp only [passes, Iter.pass, h2, h3', if_true]
    split <;> rfl
  · intro hc
    simp only [passes, Iter.pass, h2, h3', if_true, hc, true_and]
    intro ha
    exact ha _ _ _ _
  · intro hc
    simp [passes, Iter.pass, h3', hc]

/-- C67, one and two loops: a single pass with the one-loop self-energy derivative, and no iteration is
counted. -/
theorem c67_low_order (E : Eqs V S) (c : Cfg) (h1 : 1 ≤ c.nloops) (h2 : c.nloops ≤ 2) :
    ∃ x, rhs E c = .ok x ∧ x.sigma = E.oneSE ∧ x.vertex = sumTo E E.oneSE c.nloops.toNat ∧ x.counter = 0 := by
  obtain ⟨m, hm, hv⟩ := c67_pass E c E.oneSE h1
  have hmn : m = c.nloops.toNat := by
    obtain ⟨a1, a2, a3, a4⟩ := hm
    rcases a4 with a4 | ⟨a4, _⟩ <;> omega
  subst hmn
  have h3 : ¬ c.nloops ≥ 3 := by omega
  have hb : ((⟨0, E.oneSE, [], [], 0, some (10 ^ 10), some 1⟩ : Iter V S).pass E c) =
      ⟨sumTo E E.oneSE c.nloops.toNat, E.oneSE, [], [], 0, some (10 ^ 10), some 1⟩ := by
    simp [Iter.pass, h3, hv]
  have hg : ∀ x : Iter V S, x.go E c = x := by
    intro x
    rw [Iter.go, dif_neg]
    rw [again_iff]; omega
  refine ⟨⟨sumTo E E.oneSE c.nloops.toNat, E.oneSE, [], [], 0, some (10 ^ 10), some 1⟩, ?_, rfl, rfl, rfl⟩
  have h1' : c.nloops ≥ 1 := h1
  simp only [rhs, h1', if_true, hb, hg]
  exact ite_self _

/-- C67: fewer than one loop is refused. -/
theorem c67_no_loops (E : Eqs V S) (c : Cfg) (h : c.nloops < 1) : rhs E c = .error .assertion := by
  have : ¬ c.nloops ≥ 1 := by omega
  simp [rhs, this]

/-- C67 and NaN: if the correction of the first pass is not a number, the iteration ends after this pass and the
result is returned as if it had converged. -/
theorem c67_nan_accepted (E : Eqs V S) (c : Cfg) (h3 : 3 ≤ c.nloops) (hc : c.seCorr = true)
    (h : (passes E c 1).abs = none ∨ (passes E c 1).rel = none) : rhs E c = .ok (passes E c 1) := by
  have hf : ¬ (passes E c 1).again c = true := by
    rw [again_iff]
    rintro ⟨_, _, ⟨a, ha, _⟩, r, hr, _⟩
    rcases h with h | h <;> simp_all
  have : c.nloops ≥ 1 := by omega
  have hy : (passes E c 1).go E c = passes E c 1 := by rw [Iter.go, dif_neg hf]
  rw [← hy]
  simp only [rhs, this, if_true, hc]
  rfl

/-- C67 and NaN: a contribution that is not a number never meets a loop tolerance, so all configured loop orders
are computed. -/
theorem c67_nan_loops (E : Eqs V S) (c : Cfg) (σ : S) (hn : 1 ≤ c.nloops)
    (h : ∀ i, E.absV (contribution E σ i) = none ∧ E.relV (contribution E σ i) (sumTo E σ i) = none) :
    (vertexPass E c σ).1 = sumTo E σ c.nloops.toNat := by
  obtain ⟨m, ⟨_, _, _, h4⟩, h5⟩ := c67_pass E c σ hn
  rcases h4 with h4 | ⟨_, h4⟩
  · have : m = c.nloops.toNat := by omega
    rw [h5, this]
  · rcases h4 with ⟨x, hx, _⟩ | ⟨x, hx, _⟩
    · rw [(h m).1] at hx; cases hx
    · rw [(h m).2] at hx; cases hx

/-- A scalar example: bubbles multiply by `1/4`, the correction feeds back one eighth. -/
def exEqs : Eqs ℚ ℚ where
  oneSE := 1
  one σ := 1 + σ
  left v := v / 4
  right v := v / 4
  central l r := (l + r) / 8
  reorder := id
  corr v := v / 8
  accel e _ := (e.getLast?.getD (0, 0)).2
  absV v := some |v|
  relV v w := if w = 0 then none else some |v / w|
  absS s := some |s|
  relS s t := if t = 0 then none else some |s / t|

/-- With six loops and relative tolerance 1/10 the loops end at order 4, before the configured maximum. -/
example : StopsAt exEqs ⟨6, true, 10, 1/1000, 1/10, 1/1000, 1/1000⟩ 1 4 ∧
    vertexPass exEqs ⟨6, true, 10, 1/1000, 1/10, 1/1000, 1/1000⟩ 1 = (4, 3/16) := by
  have hv : vertexPass exEqs ⟨6, true, 10, 1/1000, 1/10, 1/1000, 1/1000⟩ 1 = (4, 3/16) := by
    decide +kernel
  obtain ⟨m, hm, hv'⟩ := c67_pass exEqs ⟨6, true, 10, 1/1000, 1/10, 1/1000, 1/1000⟩ 1 (by norm_num)
  refine ⟨?_, hv⟩
  have key : sumTo exEqs 1 m = 4 := by rw [hv] at hv'; exact (Prod.mk.inj hv').1.symm
  have hmle : m ≤ 6 := by have := hm.2.1; simp at this; omega
  have h1 := hm.1
  have : m = 4 := by
    clear hm hv' hv
    interval_cases m <;> revert key <;> decide +kernel
  rwa [this] at hm

/-- The self-energy iteration of the example makes two passes. -/
example : ∃ x, rhs exEqs ⟨6, true, 10, 1/1000, 1/10, 1/1000, 1/1000⟩ = .ok x ∧ x.counter = 2 := by
  obtain ⟨m, h1, h2, h3, h4, h5, h6⟩ := c67_iterations exEqs ⟨6, true, 10, 1/1000, 1/10, 1/1000, 1/1000⟩
    (by norm_num) rfl (by norm_num)
  have d1 : (passes exEqs ⟨6, true, 10, 1/1000, 1/10, 1/1000, 1/1000⟩ 1).abs = some (3/128) := by decide +kernel
  have d2 : (passes exEqs ⟨6, true, 10, 1/1000, 1/10, 1/1000, 1/1000⟩ 1).rel = some (3/131) := by decide +kernel
  have d3 : (passes exEqs ⟨6, true, 10, 1/1000, 1/10, 1/1000, 1/1000⟩ 2).abs = some (9/32768) := by decide +kernel
  have due1 : Due ⟨6, true, 10, 1/1000, 1/10, 1/1000, 1/1000⟩
      (passes exEqs ⟨6, true, 10, 1/1000, 1/10, 1/1000, 1/1000⟩ 1) :=
    ⟨⟨_, d1, by norm_num⟩, _, d2, by norm_num⟩
  have due2 : ¬ Due ⟨6, true, 10, 1/1000, 1/10, 1/1000, 1/1000⟩
      (passes exEqs ⟨6, true, 10, 1/1000, 1/10, 1/1000, 1/1000⟩ 2) := by
    rintro ⟨⟨a, ha, hlt⟩, _⟩
    rw [d3] at ha
    cases ha
    norm_num at hlt
  have hm : m = 2 := by
    by_contra hne
    rcases Nat.lt_or_ge m 3 with hlt | hge
    · have : m = 1 := by omega
      subst this
      rcases h6 with h6 | h6
      · simp at h6
      · exact h6 due1
    · exact due2 (h5 2 (by omega) (by omega))
  subst hm
  exact ⟨_, h3, h4⟩

end Verif.MfRG
