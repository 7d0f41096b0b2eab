import Verif.Record.Spec
import Verif.MfRG.Props

namespace Verif.Record

open MfRG

variable {V S : Type} [AddCommGroup V] [AddCommGroup S]

omit [AddCommGroup V] [AddCommGroup S] in
theorem put_zero (d : Dir V S) (n : Name) (layers : ℕ) (x : V × S) :
    put d n 0 layers x = .ok (fun m => if m = n then some (single layers x) else d m) := rfl

/-- Files of the first loop for the counters `a … a + k - 1`. -/
def partLR (r : Rec V S) (se a k : ℕ) : Name → Option (V × S)
  | .left rk s i => if (rk = 0 ∧ s = se) ∧ a + 1 ≤ i ∧ i ≤ a + k then (r.L[i - 2]?).map (·, r.one.2) else none
  | .right rk s i => if (rk = 0 ∧ s = se) ∧ a + 1 ≤ i ∧ i ≤ a + k then (r.R[i - 2]?).map (·, r.one.2) else none
  | _ => none

/-- Files of the second loop. -/
def partC (r : Rec V S) (se a k : ℕ) : Name → Option (V × S)
  | .centralL rk s i => if (rk = 0 ∧ s = se) ∧ a + 1 ≤ i ∧ i ≤ a + k then (r.Cl[i - 3]?).map (·, r.one.2) else none
  | .centralR rk s i => if (rk = 0 ∧ s = se) ∧ a + 1 ≤ i ∧ i ≤ a + k then (r.Cr[i - 3]?).map (·, r.one.2) else none
  | _ => none

omit [AddCommGroup V] [AddCommGroup S] in
theorem elem_ok {l : List V} {i : ℕ} (h : i < l.length) : elem l i = .ok l[i] := by
  simp [elem, h]

omit [AddCommGroup S] in
theorem for_LR (r : Rec V S) (se layers : ℕ) (k : ℕ) : ∀ (a : ℕ) (d : Dir V S), 1 ≤ a →
    a - 1 + k ≤ r.L.length → a - 1 + k ≤ r.R.length →
    forRange (saveLR r 0 0 se layers) a k d = .ok (overlay layers (partLR r se a k) d) := by
  induction k with
  | zero =>
    intro a d _ _ _
    simp only [forRange]
    congr 1
    funext name
    have : partLR r se a 0 name = none := by
      cases name <;> simp only [partLR] <;> (try rfl) <;> (rw [if_neg]; omega)
    simp only [overlay, this]
  | succ k ih =>
    intro a d ha hL hR
    have h1 : a - 1 < r.L.length := by omega
    have h2 : a - 1 < r.R.length := by omega
    have hb : saveLR r 0 0 se layers a d = .ok (fun m => if m = .right 0 se (a + 1) then
        some (single layers (r.R[a - 1], r.one.2)) else if m = .left 0 se (a + 1) then
        some (single layers (r.L[a - 1], r.one.2)) else d m) := by
      simp only [saveLR, elem_ok h1, elem_ok h2, put_zero]
      rfl
    simp only [forRange, hb]
    show forRange _ (a + 1) k _ = _
    rw [ih (a + 1) _ (by omega) (by omega) (by omega)]
    congr 1
    funext name
    cases name with
    | left rk s i =>
      simp only [overlay, partLR, reduceCtorEq, if_false, Name.left.injEq]
      by_cases hi : i = a + 1
      · subst hi
        by_cases hn : rk = 0 ∧ s = se
        · have e : a + 1 - 2 = a - 1 := by omega
          rw [if_neg (by omega)]
          simp only [hn, true_and, and_self, if_true]
          rw [if_pos (by omega), e, List.getElem?_eq_getElem h1]
          rfl
        · rw [if_neg (by omega), if_neg (by omega)]
          simp only
          rw [if_neg (by omega)]
      · have : ((rk = 0 ∧ s = se) ∧ a + 1 + 1 ≤ i ∧ i ≤ a + 1 + k) ↔
            ((rk = 0 ∧ s = se) ∧ a + 1 ≤ i ∧ i ≤ a + (k + 1)) := by omega
        have hno : ¬ (rk = 0 ∧ s = se ∧ i = a + 1) := by omega
        simp only [this, hno, if_false]
    | right rk s i =>
      simp only [overlay, partLR, reduceCtorEq, if_false, Name.right.injEq]
      by_cases hi : i = a + 1
      · subst hi
        by_cases hn : rk = 0 ∧ s = se
        · have e : a + 1 - 2 = a - 1 := by omega
          rw [if_neg (by omega)]
          simp only [hn, true_and, and_self, if_true]
          rw [if_pos (by omega), e, List.getElem?_eq_getElem h2]
          rfl
        · rw [if_neg (by omega), if_neg (by omega)]
          simp only
          rw [if_neg (by omega)]
      · have : ((rk = 0 ∧ s = se) ∧ a + 1 + 1 ≤ i ∧ i ≤ a + 1 + k) ↔
            ((rk = 0 ∧ s = se) ∧ a + 1 ≤ i ∧ i ≤ a + (k + 1)) := by omega
        have hno : ¬ (rk = 0 ∧ s = se ∧ i = a + 1) := by omega
        simp only [this, hno, if_false]
    | one | centralL | centralR | correction =>
      simp only [overlay, partLR, reduceCtorEq, if_false]

omit [AddCommGroup S] in
theorem for_C (r : Rec V S) (se layers : ℕ) (k : ℕ) : ∀ (a : ℕ) (d : Dir V S), 2 ≤ a →
    a - 2 + k ≤ r.Cl.length → a - 2 + k ≤ r.Cr.length →
    forRange (saveC r 0 0 se layers) a k d = .ok (overlay layers (partC r se a k) d) := by
  induction k with
  | zero =>
    intro a d _ _ _
    simp only [forRange]
    congr 1
    funext name
    have : partC r se a 0 name = none := by
      cases name <;> simp only [partC] <;> (try rfl) <;> (rw [if_neg]; omega)
    simp only [overlay, this]
  | succ k ih =>
    intro a d ha hL hR
    have h1 : a - 2 < r.Cl.length := by omega
    have h2 : a - 2 < r.Cr.length := by omega
    have hb : saveC r 0 0 se layers a d = .ok (fun m => if m = .centralR 0 se (a + 1) then
        some (single layers (r.Cr[a - 2], r.one.2)) else if m = .centralL 0 se (a + 1) then
        some (single layers (r.Cl[a - 2], r.one.2)) else d m) := by
      simp only [saveC, elem_ok h1, elem_ok h2, put_zero]
      rfl
    simp only [forRange, hb]
    show forRange _ (a + 1) k _ = _
    rw [ih (a + 1) _ (by omega) (by omega) (by omega)]
    congr 1
    funext name
    cases name with
    | centralL rk s i =>
      simp only [overlay, partC, reduceCtorEq, if_false, Name.centralL.injEq]
      by_cases hi : i = a + 1
      · subst hi
        by_cases hn : rk = 0 ∧ s = se
        · have e : a + 1 - 3 = a - 2 := by omega
          rw [if_neg (by omega)]
          simp only [hn, true_and, and_self, if_true]
          rw [if_pos (by omega), e, List.getElem?_eq_getElem h1]
          rfl
        · rw [if_neg (by omega), if_neg (by omega)]
          simp only
          rw [if_neg (by omega)]
      · have : ((rk = 0 ∧ s = se) ∧ a + 1 + 1 ≤ i ∧ i ≤ a + 1 + k) ↔
            ((rk = 0 ∧ s = se) ∧ a + 1 ≤ i ∧ i ≤ a + (k + 1)) := by omega
        have hno : ¬ (rk = 0 ∧ s = se ∧ i = a + 1) := by omega
        simp only [this, hno, if_false]
    | centralR rk s i =>
      simp only [overlay, partC, reduceCtorEq, if_false, Name.centralR.injEq]
      by_cases hi : i = a + 1
      · subst hi
        by_cases hn : rk = 0 ∧ s = se
        · have e : a + 1 - 3 = a - 2 := by omega
          rw [if_neg (by omega)]
          simp only [hn, true_and, and_self, if_true]
          rw [if_pos (by omega), e, List.getElem?_eq_getElem h2]
          rfl
        · rw [if_neg (by omega), if_neg (by omega)]
          simp only
          rw [if_neg (by omega)]
      · have : ((rk = 0 ∧ s = se) ∧ a + 1 + 1 ≤ i ∧ i ≤ a + 1 + k) ↔
            ((rk = 0 ∧ s = se) ∧ a + 1 ≤ i ∧ i ≤ a + (k + 1)) := by omega
        have hno : ¬ (rk = 0 ∧ s = se ∧ i = a + 1) := by omega
        simp only [this, hno, if_false]
    | one | left | right | correction =>
      simp only [overlay, partC, reduceCtorEq, if_false]

/-- The record of a pass that ended at order `n`. -/
structure Recorded (D : Diagrams V S) (σ : S) (n : ℕ) (r : Rec V S) : Prop where
  one : r.one = (contribution D.eqs σ 1, σ)
  L : r.L = (List.range (n - 1)).map fun j => D.base.left (contribution D.eqs σ (j + 1))
  R : r.R = (List.range (n - 1)).map fun j => D.base.right (contribution D.eqs σ (j + 1))
  Cl : r.Cl = (List.range (n - 2)).map fun j => D.cl (halves D σ (j + 2)).1 (halves D σ (j + 2)).2
  Cr : r.Cr = (List.range (n - 2)).map fun j => D.cr (halves D σ (j + 2)).1 (halves D σ (j + 2)).2

omit [AddCommGroup S] in
theorem save_recorded {D : Diagrams V S} {σ : S} {n : ℕ} {r : Rec V S} (h : Recorded D σ n r) (hn : 1 ≤ n)
    (se layers : ℕ) (d : Dir V S) :
    saveStates r 0 0 se layers d = .ok (overlay layers (expected D σ n se r.corr) d) := by
  have lL : r.L.length = n - 1 := by simp [h.L]
  have lR : r.R.length = n - 1 := by simp [h.R]
  have lCl : r.Cl.length = n - 2 := by simp [h.Cl]
  have lCr : r.Cr.length = n - 2 := by simp [h.Cr]
  have e1 : r.L.length + 1 = n := by omega
  simp only [saveStates, e1, put_zero]
  show (forRange _ 1 (n - 1) _ >>= _) = _
  rw [for_LR r se layers (n - 1) 1 _ (le_refl _) (by omega) (by omega)]
  show (forRange _ 2 (n - 2) _ >>= _) = _
  rw [for_C r se layers (n - 2) 2 _ (le_refl _) (by omega) (by omega)]
  show (if n > 2 then _ else _) = _
  have key : ∀ (l : List V) (f : ℕ → V) (m j : ℕ), l = (List.range m).map f → j < m → l[j]? = some (f j) := by
    intro l f m j hl hj
    rw [hl, List.getElem?_map, List.getElem?_range hj]
    rfl
  have main : ∀ (d' : Dir V S), (if n > 2 then (Except.ok (fun m => if m = .correction 0 se then
      some (single layers r.corr) else d' m) : Res (Dir V S)) else .ok d') = .ok (fun m =>
      if n > 2 ∧ m = .correction 0 se then some (single layers r.corr) else d' m) := by
    intro d'
    by_cases h2 : n > 2
    · simp [h2]
    · simp [h2]
  refine (main _).trans ?_
  congr 1
  funext name
  cases name with
  | one rk s =>
    simp only [reduceCtorEq, and_false, if_false, overlay, partC, partLR, expected, Name.one.injEq]
    by_cases hc : rk = 0 ∧ s = se
    · simp [hc, h.one]
    · simp [hc]
  | left rk s i =>
    simp only [reduceCtorEq, and_false, if_false, overlay, partC, partLR, expected]
    by_cases hc : (rk = 0 ∧ s = se) ∧ 2 ≤ i ∧ i ≤ n
    · rw [if_pos (by omega), if_pos hc, key r.L _ _ (i - 2) h.L (by omega), h.one,
        show i - 2 + 1 = i - 1 by omega]
      rfl
    · rw [if_neg (by omega), if_neg hc]
  | right rk s i =>
    simp only [reduceCtorEq, and_false, if_false, overlay, partC, partLR, expected]
    by_cases hc : (rk = 0 ∧ s = se) ∧ 2 ≤ i ∧ i ≤ n
    · rw [if_pos (by omega), if_pos hc, key r.R _ _ (i - 2) h.R (by omega), h.one,
        show i - 2 + 1 = i - 1 by omega]
      rfl
    · rw [if_neg (by omega), if_neg hc]
  | centralL rk s i =>
    simp only [reduceCtorEq, and_false, if_false, overlay, partC, partLR, expected]
    by_cases hc : (rk = 0 ∧ s = se) ∧ 3 ≤ i ∧ i ≤ n
    · rw [if_pos (by omega), if_pos hc, key r.Cl _ _ (i - 3) h.Cl (by omega), h.one,
        show i - 3 + 2 = i - 1 by omega]
      rfl
    · rw [if_neg (by omega), if_neg hc]
  | centralR rk s i =>
    simp only [reduceCtorEq, and_false, if_false, overlay, partC, partLR, expected]
    by_cases hc : (rk = 0 ∧ s = se) ∧ 3 ≤ i ∧ i ≤ n
    · rw [if_pos (by omega), if_pos hc, key r.Cr _ _ (i - 3) h.Cr (by omega), h.one,
        show i - 3 + 2 = i - 1 by omega]
      rfl
    · rw [if_neg (by omega), if_neg hc]
  | correction rk s =>
    simp only [overlay, partC, partLR, expected, Name.correction.injEq, reduceCtorEq, if_false]
    by_cases hc : (rk = 0 ∧ s = se) ∧ 3 ≤ n
    · rw [if_pos (by omega), if_pos hc]
    · rw [if_neg (by omega), if_neg hc]

omit [AddCommGroup S] in
theorem body_recorded {D : Diagrams V S} {σ : S} {i : ℕ} (hi : 2 ≤ i) {s : Loop V} {r : Rec V S}
    (h : Holds D.eqs σ i s) (hr : Recorded D σ i r) : Recorded D σ (i + 1) (body D s r).2 := by
  obtain ⟨_, h2, h3, _⟩ := h
  have hL : s.L = (halves D σ i).1 := congrArg Prod.fst h3
  have hR : s.R = (halves D σ i).2 := congrArg Prod.snd h3
  have e1 : i + 1 - 1 = (i - 1) + 1 := by omega
  have e2 : i + 1 - 2 = (i - 2) + 1 := by omega
  have e3 : i - 1 + 1 = i := by omega
  have e4 : i - 2 + 2 = i := by omega
  refine ⟨hr.one, ?_, ?_, ?_, ?_⟩
  · rw [e1, List.range_succ, List.map_append, ← hr.L, List.map_singleton, e3, ← h2]
    rfl
  · rw [e1, List.range_succ, List.map_append, ← hr.R, List.map_singleton, e3, ← h2]
    rfl
  · simp only [body, hr.Cl, e2, List.range_succ, List.map_append, List.map_cons, List.map_nil, e4, hL, hR]
  · simp only [body, hr.Cr, e2, List.range_succ, List.map_append, List.map_cons, List.map_nil, e4, hL, hR]

omit [AddCommGroup S] in
theorem go_fst (D : Diagrams V S) (c : Cfg) (k : ℕ) : ∀ (s : Loop V) (r : Rec V S),
    (go D c k s r).1 = Loop.go D.eqs c k s := by
  induction k with
  | zero => intro s r; rfl
  | succ k ih =>
    intro s r
    by_cases hd : (s.body D.eqs).done D.eqs c = true
    · have hd' : (body D s r).1.done D.eqs c = true := hd
      simp only [go, Loop.go, hd, hd', if_true]
      rfl
    · have hd' : ¬ (body D s r).1.done D.eqs c = true := hd
      simp only [go, Loop.go, hd, hd']
      exact ih _ _

/-- The loop ends at the order that `Holds` names, and the record is that of the same order. -/
theorem go_recorded (D : Diagrams V S) (c : Cfg) (σ : S) (k : ℕ) : ∀ (i : ℕ) (s : Loop V) (r : Rec V S),
    2 ≤ i → Holds D.eqs σ i s → Recorded D σ i r →
    ∃ m, i ≤ m ∧ m ≤ i + k ∧ Holds D.eqs σ m (go D c k s r).1 ∧ Recorded D σ m (go D c k s r).2 ∧
      (go D c k s r).2.corr = r.corr ∧
      (∀ j, i < j → j < m → ¬ Small D.eqs c σ j) ∧ (m = i + k ∨ (i < m ∧ Small D.eqs c σ m)) := by
  induction k with
  | zero =>
    intro i s r hi h hr
    exact ⟨i, le_refl _, le_refl _, h, hr, rfl, fun j h1 h2 => by omega, Or.inl rfl⟩
  | succ k ih =>
    intro i s r hi h hr
    have hb := holds_body hi h
    have hrb := body_recorded hi h hr
    simp only [go]
    by_cases hd : (body D s r).1.done D.eqs c = true
    · rw [if_pos hd]
      exact ⟨i + 1, by omega, by omega, hb, hrb, rfl, fun j h1 h2 => by omega,
        Or.inr ⟨by omega, (done_iff hb).mp hd⟩⟩
    · rw [if_neg hd]
      obtain ⟨m, h1, h2, h3, h3', h3'', h4, h5⟩ := ih (i + 1) _ _ (by omega) hb hrb
      refine ⟨m, by omega, by omega, h3, h3', h3'', fun j hj1 hj2 => ?_, ?_⟩
      · by_cases hj : j = i + 1
        · subst hj
          exact fun hs => hd ((done_iff hb).mpr hs)
        · exact h4 j (by omega) hj2
      · rcases h5 with h5 | ⟨h5, h6⟩
        · exact Or.inl (by omega)
        · exact Or.inr ⟨by omega, h6⟩

theorem vertexPass_fst (D : Diagrams V S) (c : Cfg) (σ : S) :
    (vertexPass D c σ).1 = MfRG.vertexPass D.eqs c σ := by
  simp only [vertexPass, MfRG.vertexPass]
  split
  · split
    · simp only [go_fst]; rfl
    · rfl
  · rfl

/-- The record of a pass is that of the order at which the pass stops. -/
theorem vertexPass_recorded (D : Diagrams V S) (c : Cfg) (σ : S) (hn : 1 ≤ c.nloops) :
    ∃ n, StopsAt D.eqs c σ n ∧ Recorded D σ n (vertexPass D c σ).2 ∧ (vertexPass D c σ).2.corr = (0, 0) := by
  simp only [vertexPass]
  by_cases h2 : c.nloops ≥ 2
  · rw [if_pos h2]
    have two : sumTo D.eqs σ 2 = D.eqs.one σ + (D.eqs.left (D.eqs.one σ) + D.eqs.right (D.eqs.one σ)) := by
      rw [sumTo_succ]
      simp [sumTo, contribution, orders]
    have hold : Holds D.eqs σ 2 ⟨D.eqs.one σ + (D.eqs.left (D.eqs.one σ) + D.eqs.right (D.eqs.one σ)),
        D.eqs.left (D.eqs.one σ) + D.eqs.right (D.eqs.one σ),
        (D.eqs.reorder (D.eqs.left (D.eqs.one σ), D.eqs.right (D.eqs.one σ))).1,
        (D.eqs.reorder (D.eqs.left (D.eqs.one σ), D.eqs.right (D.eqs.one σ))).2, 0⟩ :=
      ⟨two.symm, rfl, rfl, by simp⟩
    have hr : Recorded D σ 2 ⟨(D.base.one σ, σ), [D.base.left (D.base.one σ)], [D.base.right (D.base.one σ)],
        [], [], ((0 : V), (0 : S))⟩ := ⟨rfl, rfl, rfl, rfl, rfl⟩
    by_cases h3 : c.nloops ≥ 3
    · rw [if_pos h3]
      obtain ⟨m, h4, h5, _, h6, hc, h7, h8⟩ :=
        go_recorded D c σ (c.nloops - 2).toNat 2 _ _ (le_refl _) hold hr
      refine ⟨m, ⟨by omega, by omega, fun i h1 hm => h7 i (by omega) hm, ?_⟩, h6, hc⟩
      rcases h8 with h8 | ⟨h8, h9⟩
      · exact Or.inl (by omega)
      · exact Or.inr ⟨by omega, h9⟩
    · rw [if_neg h3]
      exact ⟨2, ⟨by omega, by omega, fun i h1 hm => by omega, Or.inl (by omega)⟩, hr, rfl⟩
  · rw [if_neg h2]
    exact ⟨1, ⟨by omega, by omega, fun i h1 hm => by omega, Or.inl (by omega)⟩, ⟨rfl, rfl, rfl, rfl, rfl⟩, rfl⟩

/-- The correction that a pass begun with `σ` and ended at order `n` records. -/
def corrOf (D : Diagrams V S) (c : Cfg) (σ : S) (n : ℕ) : V × S :=
  if c.nloops ≥ 3 ∧ c.seCorr = true then
    (sumTo D.eqs σ n, D.base.corr (∑ i ∈ Finset.Icc 3 n, centralPart D.eqs σ i))
  else (0, 0)

theorem passSave_ok (D : Diagrams V S) (c : Cfg) (layers : ℕ) (x : Iter V S) (d : Dir V S)
    (hn : 1 ≤ c.nloops) : ∃ n, StopsAt D.eqs c x.sigma n ∧
      passSave D c true 0 0 layers x d = .ok (x.pass D.eqs c,
        overlay layers (expected D x.sigma n (x.pass D.eqs c).counter (corrOf D c x.sigma n)) d) := by
  obtain ⟨n, h1, h2, h3⟩ := vertexPass_recorded D c x.sigma hn
  refine ⟨n, h1, ?_⟩
  have hr : Recorded D x.sigma n (pass D c x).2 ∧ (pass D c x).2.corr = corrOf D c x.sigma n := by
    simp only [pass, corrOf]
    split
    · refine ⟨⟨h2.one, h2.L, h2.R, h2.Cl, h2.Cr⟩, ?_⟩
      obtain ⟨m, hm, hv⟩ := c67_pass D.eqs c x.sigma hn
      rw [vertexPass_fst, hv, stopsAt_unique hm h1]
    · exact ⟨h2, h3⟩
  have hs := save_recorded hr.1 h1.1 (pass D c x).1.counter layers d
  simp only [passSave, if_true]
  rw [hs, hr.2]
  rfl

theorem passSave_off (D : Diagrams V S) (c : Cfg) (it rk layers : ℕ) (x : Iter V S) (d : Dir V S) :
    passSave D c false it rk layers x d = .ok (x.pass D.eqs c, d) := rfl

end Verif.Record
