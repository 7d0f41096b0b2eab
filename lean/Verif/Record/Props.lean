import Verif.Record.Lemmas

/-
C138: intermediate results of the right-hand side.
-/
namespace Verif.Record

open MfRG

variable {V S : Type} [AddCommGroup V] [AddCommGroup S]

theorem passSave_stop (D : Diagrams V S) (c : Cfg) (layers : ℕ) (x : Iter V S) (d : Dir V S)
    (hn : 1 ≤ c.nloops) {n : ℕ} (h : StopsAt D.eqs c x.sigma n) :
    passSave D c true 0 0 layers x d = .ok (x.pass D.eqs c,
      overlay layers (expected D x.sigma n (x.pass D.eqs c).counter (corrOf D c x.sigma n)) d) := by
  obtain ⟨m, h1, h2⟩ := passSave_ok D c layers x d hn
  rw [h2, stopsAt_unique h1 h]

/-- What iteration `k` leaves behind, when iteration `k` begins with `passes (k - 1)` and stops at order `n k`. -/
def left (D : Diagrams V S) (c : Cfg) (n : ℕ → ℕ) (k : ℕ) : Name → Option (V × S) :=
  expected D (passes D.eqs c (k - 1)).sigma (n k) k (corrOf D c (passes D.eqs c (k - 1)).sigma (n k))

theorem iterSave_on (D : Diagrams V S) (c : Cfg) (layers : ℕ) (h3 : 3 ≤ c.nloops) (n : ℕ → ℕ)
    (hn : ∀ k, 1 ≤ k → StopsAt D.eqs c (passes D.eqs c (k - 1)).sigma (n k)) (d : Dir V S) (m : ℕ) :
    ∀ (k j : ℕ), c.nmax - j ≤ k → (passes D.eqs c j).go D.eqs c = passes D.eqs c m → j ≤ m →
    (∀ i, j ≤ i → i < m → (passes D.eqs c i).again c = true) → ¬ (passes D.eqs c m).again c = true →
    iterSave D c true 0 0 layers k (passes D.eqs c j) (overlays layers (left D c n) d j) =
      .ok (passes D.eqs c m, overlays layers (left D c n) d m) := by
  intro k
  induction k with
  | zero =>
    intro j hk _ hj ha hb
    have : j = m := by
      by_contra hne
      have := (again_iff c _).mp (ha j (le_refl _) (by omega))
      rw [passes_counter D.eqs c h3] at this
      omega
    subst this
    rfl
  | succ k ih =>
    intro j hk hg hj ha hb
    by_cases hjm : j = m
    · subst hjm
      simp only [iterSave, hb]
      rfl
    · have hag := ha j (le_refl _) (by omega)
      have hs := hn (j + 1) (by omega)
      rw [Nat.add_sub_cancel] at hs
      have hp := passSave_stop D c layers (passes D.eqs c j) (overlays layers (left D c n) d j) (by omega) hs
      have hc : ((passes D.eqs c j).pass D.eqs c).counter = j + 1 := passes_counter D.eqs c h3 (j + 1)
      rw [hc] at hp
      simp only [iterSave, hag, if_true, hp]
      refine ih (j + 1) (by omega) ?_ (by omega) (fun i h1 h2 => ha i (by omega) h2) hb
      rw [Iter.go, dif_pos hag] at hg
      exact hg

/-- The result of an evaluation that saves, in terms of the passes. -/
theorem rhsSave_high (D : Diagrams V S) (c : Cfg) (layers : ℕ) (h3 : 3 ≤ c.nloops) (hc : c.seCorr = true)
    (hm : 1 ≤ c.nmax) (d : Dir V S) (n : ℕ → ℕ)
    (hn : ∀ k, 1 ≤ k → StopsAt D.eqs c (passes D.eqs c (k - 1)).sigma (n k)) :
    ∃ m, 1 ≤ m ∧ rhs D.eqs c = .ok (passes D.eqs c m) ∧
      rhsSave D c true 0 0 layers d = .ok (passes D.eqs c m, overlays layers (left D c n) d m) := by
  obtain ⟨m, h1, h2, h4, h5, h6, h7⟩ := c67_iterations D.eqs c h3 hc hm
  refine ⟨m, h1, h4, ?_⟩
  have hp := passSave_stop D c layers (passes D.eqs c 0) d (by omega) (hn 1 (le_refl _))
  have hc1 : ((passes D.eqs c 0).pass D.eqs c).counter = 1 := passes_counter D.eqs c h3 1
  rw [hc1] at hp
  have hge : c.nloops ≥ 1 := by omega
  have hg : (passes D.eqs c 1).go D.eqs c = passes D.eqs c m := by
    have h : rhs D.eqs c = .ok ((passes D.eqs c 1).go D.eqs c) := by
      simp only [rhs, hge, if_true, hc]; rfl
    rw [h4] at h
    exact (Except.ok.inj h).symm
  have key := iterSave_on D c layers h3 n hn d m c.nmax 1 (by omega) hg h1 ?_ ?_
  · simp only [rhsSave, hge, if_true, hc, beq_self_eq_true, Bool.and_self]
    exact (congrArg (· >>= _) hp).trans key
  · intro i hi1 hi2
    rw [again_iff, passes_counter D.eqs c h3]
    exact ⟨h3, by omega, h6 i hi1 hi2⟩
  · rw [again_iff, passes_counter D.eqs c h3]
    rintro ⟨_, hlt, hd⟩
    rcases h7 with h7 | h7
    · omega
    · exact h7 hd

theorem overlays_apply (layers : ℕ) (f : ℕ → Name → Option (V × S)) (d : Dir V S) (name : Name) (k : ℕ)
    (h : ∀ j, j ≠ k → f j name = none) (m : ℕ) :
    overlays layers f d m name = if 1 ≤ k ∧ k ≤ m then
      (match f k name with | some x => some (single layers x) | none => d name) else d name := by
  induction m with
  | zero => rw [if_neg (by omega)]; rfl
  | succ m ih =>
    show (match f (m + 1) name with | some x => _ | none => overlays layers f d m name) = _
    by_cases hk : m + 1 = k
    · subst hk
      rw [if_pos ⟨by omega, le_refl _⟩]
      have : overlays layers f d m name = d name := by rw [ih, if_neg (by omega)]
      rw [this]
    · rw [h _ hk, ih]
      by_cases hc : 1 ≤ k ∧ k ≤ m
      · rw [if_pos hc, if_pos (by omega)]
      · rw [if_neg hc, if_neg (by omega)]

/-- Number of the self-energy iteration in a file name. -/
def Name.se : Name → ℕ
  | .one _ s => s
  | .left _ s _ => s
  | .right _ s _ => s
  | .centralL _ s _ => s
  | .centralR _ s _ => s
  | .correction _ s => s

theorem expected_se (D : Diagrams V S) (σ : S) (n k : ℕ) (x : V × S) (name : Name) (h : name.se ≠ k) :
    expected D σ n k x name = none := by
  cases name <;> simp only [Name.se] at h <;> simp [expected, h]

/-- C138, what is saved (three loops or more, corrections enabled).  An evaluation that saves makes `m ≥ 1`
self-energy iterations, as the evaluation without saving does, and yields the same result.  For each of the
iterations `k = 1 … m` the directory then holds: the one-loop derivative with which the iteration began; the left
and the right part of every loop order from two up to the order `n k` at which the iteration ended; both forms of
the central part of every order from three up to `n k`; and the vertex with the self-energy correction.  Every
other file of the directory is as it was before. -/
theorem c138_files (D : Diagrams V S) (c : Cfg) (layers : ℕ) (h3 : 3 ≤ c.nloops) (hc : c.seCorr = true)
    (hm : 1 ≤ c.nmax) (d : Dir V S) :
    ∃ (m : ℕ) (n : ℕ → ℕ) (d' : Dir V S), 1 ≤ m ∧ rhs D.eqs c = .ok (passes D.eqs c m) ∧
      rhsSave D c true 0 0 layers d = .ok (passes D.eqs c m, d') ∧
      (∀ k, 1 ≤ k → StopsAt D.eqs c (passes D.eqs c (k - 1)).sigma (n k)) ∧
      ∀ name, d' name =
        match (if 1 ≤ name.se ∧ name.se ≤ m then
          expected D (passes D.eqs c (name.se - 1)).sigma (n name.se) name.se
            (sumTo D.eqs (passes D.eqs c (name.se - 1)).sigma (n name.se),
              D.base.corr (∑ i ∈ Finset.Icc 3 (n name.se),
                centralPart D.eqs (passes D.eqs c (name.se - 1)).sigma i)) name else none) with
        | some x => some (single layers x)
        | none => d name := by
  have hex : ∀ k : ℕ, ∃ n, StopsAt D.eqs c (passes D.eqs c (k - 1)).sigma n := fun k => by
    obtain ⟨n, h, _⟩ := c67_pass D.eqs c (passes D.eqs c (k - 1)).sigma (by omega)
    exact ⟨n, h⟩
  choose n hn using hex
  obtain ⟨m, h1, h2, h4⟩ := rhsSave_high D c layers h3 hc hm d n (fun k _ => hn k)
  refine ⟨m, n, _, h1, h2, h4, fun k _ => hn k, fun name => ?_⟩
  rw [overlays_apply layers (left D c n) d name name.se (fun j hj => expected_se D _ _ _ _ name (Ne.symm hj)) m]
  have hco : ∀ σ k, corrOf D c σ k = (sumTo D.eqs σ k, D.base.corr (∑ i ∈ Finset.Icc 3 k, centralPart D.eqs σ i)) := by
    intro σ k
    rw [corrOf, if_pos ⟨h3, hc⟩]
  by_cases hs : 1 ≤ name.se ∧ name.se ≤ m
  · rw [if_pos hs, if_pos hs, left, hco]
  · rw [if_neg hs, if_neg hs]

/-- C138, one and two loops: a single iteration, with number zero in the names, and only the one-loop derivative
and the parts of order two. -/
theorem c138_files_low (D : Diagrams V S) (c : Cfg) (layers : ℕ) (h1 : 1 ≤ c.nloops) (h2 : c.nloops ≤ 2)
    (d : Dir V S) :
    ∃ x, rhs D.eqs c = .ok x ∧ rhsSave D c true 0 0 layers d =
      .ok (x, overlay layers (expected D D.base.oneSE c.nloops.toNat 0 (0, 0)) d) := by
  obtain ⟨n, hn, hp⟩ := passSave_ok D c layers ⟨0, D.base.oneSE, [], [], 0, some (10 ^ 10), some 1⟩ d h1
  have hnn : n = c.nloops.toNat := by
    obtain ⟨a1, a2, a3, a4⟩ := hn
    rcases a4 with a4 | ⟨a4, _⟩ <;> omega
  subst hnn
  have h3 : ¬ c.nloops ≥ 3 := by omega
  have hco : corrOf D c D.base.oneSE c.nloops.toNat = (0, 0) := by rw [corrOf, if_neg (fun h => h3 h.1)]
  have hct : ((⟨0, D.base.oneSE, [], [], 0, some (10 ^ 10), some 1⟩ : Iter V S).pass D.eqs c).counter = 0 := by
    simp [Iter.pass, h3]
  rw [hco, hct] at hp
  have hag : ∀ x : Iter V S, ¬ x.again c = true := by
    intro x
    rw [again_iff]; omega
  refine ⟨(⟨0, D.base.oneSE, [], [], 0, some (10 ^ 10), some 1⟩ : Iter V S).pass D.eqs c, ?_, ?_⟩
  · have hg : ∀ x : Iter V S, x.go D.eqs c = x := by
      intro x
      rw [Iter.go, dif_neg (hag x)]
    simp only [rhs, show c.nloops ≥ 1 from h1, if_true, hg]
    exact ite_self _
  · simp only [rhsSave, show c.nloops ≥ 1 from h1, if_true, beq_self_eq_true, Bool.and_self]
    refine (congrArg (· >>= _) hp).trans ?_
    show (if c.seCorr = true then _ else _) = _
    have : ∀ (k : ℕ) (x : Iter V S) (d : Dir V S), iterSave D c true 0 0 layers k x d = .ok (x, d) := by
      intro k x d
      cases k with
      | zero => rfl
      | succ k => simp only [iterSave, hag x]; rfl
    rw [this]
    exact ite_self _

theorem iterSave_off (D : Diagrams V S) (c : Cfg) (it rk layers : ℕ) (d : Dir V S) : ∀ (k : ℕ) (x : Iter V S),
    c.nmax - x.counter ≤ k → iterSave D c false it rk layers k x d = .ok (x.go D.eqs c, d) := by
  intro k
  induction k with
  | zero =>
    intro x hx
    rw [Iter.go, dif_neg (by rw [again_iff]; omega)]
    rfl
  | succ k ih =>
    intro x hx
    by_cases ha : x.again c = true
    · simp only [iterSave, ha, if_true, passSave_off]
      show iterSave D c false it rk layers k (x.pass D.eqs c) d = _
      have h3 := ((again_iff c x).mp ha)
      rw [ih _ (by rw [Iter.pass_counter D.eqs c x (by omega)]; omega)]
      conv_rhs => rw [Iter.go, dif_pos ha]
    · simp only [iterSave, ha]
      rw [Iter.go, dif_neg ha]
      rfl

/-- C138, no other evaluation saves: if the configuration does not ask for it, or the evaluation is not the first
stage of iteration zero, the result is that of `rhs` and the directory is untouched. -/
theorem c138_untouched (D : Diagrams V S) (c : Cfg) (wanted : Bool) (it rk layers : ℕ) (d : Dir V S)
    (h : ¬ (wanted = true ∧ it = 0 ∧ rk = 0)) :
    rhsSave D c wanted it rk layers d = (rhs D.eqs c).map (·, d) := by
  have hs : (rk == 0 && it == 0 && wanted) = false := by
    cases wanted
    · simp
    · simp only [Bool.and_true, Bool.and_eq_false_iff, beq_eq_false_iff_ne]
      by_contra hcon
      push Not at hcon
      exact h ⟨rfl, hcon.2, hcon.1⟩
  simp only [rhsSave, rhs, hs, passSave_off]
  by_cases h1 : c.nloops ≥ 1
  · rw [if_pos h1, if_pos h1]
    show (if c.seCorr = true then _ else _) = _
    by_cases hc : c.seCorr = true
    · rw [if_pos hc, if_pos hc, iterSave_off]
      · rfl
      · omega
    · rw [if_neg hc, if_neg hc]
      rfl
  · rw [if_neg h1, if_neg h1]
    rfl

/-- C138: the parts of an order that are saved add up to the contribution of this order. -/
theorem c138_parts (D : Diagrams V S) (σ : S) (n k i : ℕ) (x : V × S) (hi : 3 ≤ i) (hn : i ≤ n) :
    ∃ l r cl cr, expected D σ n k x (.left 0 k i) = some (l, σ) ∧ expected D σ n k x (.right 0 k i) = some (r, σ) ∧
      expected D σ n k x (.centralL 0 k i) = some (cl, σ) ∧
      expected D σ n k x (.centralR 0 k i) = some (cr, σ) ∧
      contribution D.eqs σ i = l + D.mean cr cl + r := by
  obtain ⟨j, rfl⟩ : ∃ j, i = j + 3 := ⟨i - 3, by omega⟩
  exact ⟨_, _, _, _, if_pos ⟨⟨rfl, rfl⟩, by omega, hn⟩, if_pos ⟨⟨rfl, rfl⟩, by omega, hn⟩,
    if_pos ⟨⟨rfl, rfl⟩, by omega, hn⟩, if_pos ⟨⟨rfl, rfl⟩, by omega, hn⟩, rfl⟩

/-- Scalar diagrams. -/
def exD : Diagrams ℚ ℚ := ⟨exEqs, fun l r => (l + r) / 8, fun l r => (l + r) / 4, fun a b => (a + b) / 2⟩

/-- First layer of a file of the directory that the example leaves behind: six loops with a tolerance that ends the
orders at five. -/
def exFile (name : Name) : Option (ℚ × ℚ) :=
  match rhsSave exD ⟨6, true, 10, 1/1000, 1/10, 1/1000, 1/1000⟩ true 0 0 7 (fun _ => none) with
  | .ok p => (p.2 name).bind fun f => f.row 0
  | .error _ => none

/-- The files of order five are written, those of order six are not; there are two self-energy iterations. -/
example : exFile (.left 0 1 4) = some (11/64, 1) ∧ exFile (.left 0 1 5) = some (7/64, 1) ∧
    exFile (.left 0 1 6) = none ∧ exFile (.centralL 0 1 5) = some (11/128, 1) ∧ exFile (.one 0 1) = some (2, 1) ∧
    exFile (.left 0 2 2) ≠ none ∧ exFile (.left 0 3 2) = none := by decide +kernel

end Verif.Record
