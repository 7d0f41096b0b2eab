import Verif.State.Props
import Verif.State.PropsNorm

/-
C47, C48, C49, C82 for whole states, and the failures of the arithmetic.
-/
namespace Verif.State

/-- Entries of a class in the three channels. -/
def classOf (k : RV ℂ → Buf ℂ) (x : Vert ℂ) : List ℂ := (k x.a).data ++ (k x.p).data ++ (k x.t).data

/-- The numbers that enter the norm of a state. -/
def entering (cf : Conf) (x : St ℂ) : List ℂ :=
  x.se.sigma.data ++ [x.se.asymp] ++ classOf RV.k1 x.vertex ++
    (if 2 ≤ cf.maxDiag then classOf RV.k2 x.vertex else []) ++
    (if 3 ≤ cf.maxDiag then classOf RV.k3 x.vertex else [])

theorem stNorm_eq (cf : Conf) (x : St ℂ) :
    ∃ n1 n2 n3, stNorm cf x = .ok (max (seNorm 0 x.se.sigma.data x.se.asymp) (n1 + n2 + n3)) ∧
      classNorm 0 x.vertex.a.k1.data x.vertex.p.k1.data x.vertex.t.k1.data = .ok n1 ∧
      (2 ≤ cf.maxDiag → classNorm 0 x.vertex.a.k2.data x.vertex.p.k2.data x.vertex.t.k2.data = .ok n2) ∧
      (¬ 2 ≤ cf.maxDiag → n2 = 0) ∧
      (3 ≤ cf.maxDiag → classNorm 0 x.vertex.a.k3.data x.vertex.p.k3.data x.vertex.t.k3.data = .ok n3) ∧
      (¬ 3 ≤ cf.maxDiag → n3 = 0) := by
  obtain ⟨n1, h1, -⟩ := c48_max_partial x.vertex.a.k1.data x.vertex.p.k1.data x.vertex.t.k1.data
  obtain ⟨n2, h2, -⟩ := c48_max_partial x.vertex.a.k2.data x.vertex.p.k2.data x.vertex.t.k2.data
  obtain ⟨n3, h3, -⟩ := c48_max_partial x.vertex.a.k3.data x.vertex.p.k3.data x.vertex.t.k3.data
  by_cases c2 : 2 ≤ cf.maxDiag <;> by_cases c3 : 3 ≤ cf.maxDiag
  · refine ⟨n1, n2, n3, ?_, h1, fun _ => h2, fun h => absurd c2 h, fun _ => h3, fun h => absurd c3 h⟩
    simp [stNorm, sumNorm, c2, c3, h1, h2, h3, bind, Except.bind, pure, Except.pure]
  · refine ⟨n1, n2, 0, ?_, h1, fun _ => h2, fun h => absurd c2 h, fun h => absurd h c3, fun _ => rfl⟩
    simp [stNorm, sumNorm, c2, c3, h1, h2, bind, Except.bind, pure, Except.pure]
  · omega
  · refine ⟨n1, 0, 0, ?_, h1, fun h => absurd h c2, fun _ => rfl, fun h => absurd h c3, fun _ => rfl⟩
    simp [stNorm, sumNorm, c2, c3, h1, bind, Except.bind, pure, Except.pure]

theorem seNorm_zero_le (s : List ℂ) (z : ℂ) (r : ℝ) :
    seNorm 0 s z ≤ r ↔ 0 ≤ r ∧ ∀ y ∈ s ++ [z], ‖y‖ ≤ r := by
  simp only [seNorm, if_true, max_le_iff, maxNorm_le, List.mem_append, List.mem_singleton]
  constructor
  · rintro ⟨⟨h0, h1⟩, h2⟩
    exact ⟨h0, fun y hy => hy.elim (h1 y) (fun h => h ▸ h2)⟩
  · rintro ⟨h0, h1⟩
    exact ⟨⟨h0, fun y hy => h1 y (.inl hy)⟩, h1 z (.inr rfl)⟩

/-- C48 (norm of a state, as used for error estimates). It exists for every state, is at least the modulus of every number
that enters, is bounded by three times the largest of them, and vanishes only if all of them vanish. -/
theorem c48_state_partial (cf : Conf) (x : St ℂ) :
    ∃ N, stNorm cf x = .ok N ∧ 0 ≤ N ∧ (∀ z ∈ entering cf x, ‖z‖ ≤ N) ∧
      (∀ r, 0 ≤ r → (∀ z ∈ entering cf x, ‖z‖ ≤ r) → N ≤ 3 * r) ∧ (N = 0 ↔ ∀ z ∈ entering cf x, z = 0) := by
  obtain ⟨n1, n2, n3, h, g1, g2, g2', g3, g3'⟩ := stNorm_eq cf x
  obtain ⟨m1, e1, p1, -, q1, -⟩ := c48_max_partial x.vertex.a.k1.data x.vertex.p.k1.data x.vertex.t.k1.data
  rw [g1] at e1; cases e1
  have s2 : 0 ≤ n2 ∧ ∀ r, n2 ≤ r ↔ 0 ≤ r ∧ ∀ z ∈ (if 2 ≤ cf.maxDiag then classOf RV.k2 x.vertex else []), ‖z‖ ≤ r := by
    by_cases c2 : 2 ≤ cf.maxDiag
    · obtain ⟨m2, e2, p2, -, q2, -⟩ := c48_max_partial x.vertex.a.k2.data x.vertex.p.k2.data x.vertex.t.k2.data
      rw [g2 c2] at e2; cases e2
      rw [if_pos c2]
      exact ⟨p2, q2⟩
    · rw [if_neg c2, g2' c2]; simp
  have s3 : 0 ≤ n3 ∧ ∀ r, n3 ≤ r ↔ 0 ≤ r ∧ ∀ z ∈ (if 3 ≤ cf.maxDiag then classOf RV.k3 x.vertex else []), ‖z‖ ≤ r := by
    by_cases c3 : 3 ≤ cf.maxDiag
    · obtain ⟨m3, e3, p3, -, q3, -⟩ := c48_max_partial x.vertex.a.k3.data x.vertex.p.k3.data x.vertex.t.k3.data
      rw [g3 c3] at e3; cases e3
      rw [if_pos c3]
      exact ⟨p3, q3⟩
    · rw [if_neg c3, g3' c3]; simp
  have qs := seNorm_zero_le x.se.sigma.data x.se.asymp
  have ps : 0 ≤ seNorm 0 x.se.sigma.data x.se.asymp := ((qs _).mp le_rfl).1
  set S := seNorm 0 x.se.sigma.data x.se.asymp
  have up : ∀ z ∈ entering cf x, ‖z‖ ≤ max S (n1 + n2 + n3) := by
    intro z hz
    simp only [entering, List.mem_append] at hz
    rcases hz with (((hz | hz) | hz) | hz) | hz
    · exact le_max_of_le_left (((qs S).mp le_rfl).2 z (by simp [hz]))
    · exact le_max_of_le_left (((qs S).mp le_rfl).2 z (by rw [List.mem_append]; exact .inr hz))
    · have := ((q1 n1).mp le_rfl).2 z (by simpa [classOf] using hz)
      exact le_max_of_le_right (by linarith [s2.1, s3.1])
    · have := ((s2.2 n2).mp le_rfl).2 z hz
      exact le_max_of_le_right (by linarith [p1, s3.1])
    · have := ((s3.2 n3).mp le_rfl).2 z hz
      exact le_max_of_le_right (by linarith [p1, s2.1])
  have down : ∀ r, 0 ≤ r → (∀ z ∈ entering cf x, ‖z‖ ≤ r) → max S (n1 + n2 + n3) ≤ 3 * r := by
    intro r hr hz
    have a0 : S ≤ r := (qs r).mpr ⟨hr, fun z h => hz z (by
      rw [List.mem_append] at h
      simp only [entering, List.mem_append]
      tauto)⟩
    have a1 : n1 ≤ r := (q1 r).mpr ⟨hr, fun z h => hz z (by
      simp only [entering, List.mem_append, classOf] at h ⊢
      tauto)⟩
    have a2 : n2 ≤ r := (s2.2 r).mpr ⟨hr, fun z h => hz z (by
      simp only [entering, List.mem_append]
      tauto)⟩
    have a3 : n3 ≤ r := (s3.2 r).mpr ⟨hr, fun z h => hz z (by
      simp only [entering, List.mem_append]
      tauto)⟩
    exact max_le (by linarith) (by linarith)
  refine ⟨_, h, le_max_of_le_left ps, up, down, ?_⟩
  constructor
  · intro h0 z hz
    have := up z hz
    rw [h0] at this
    exact norm_le_zero_iff.mp this
  · intro hz
    have := down 0 le_rfl (fun z h => by rw [hz z h]; simp)
    exact le_antisymm (by simpa using this) (le_max_of_le_left ps)

/-- C48 (norm of a state). Scaling the state scales the norm by the modulus of the factor. -/
theorem c48_state_homogeneous_partial (cf : Conf) (hd : 1 ≤ cf.maxDiag) (x : St ℂ) (c : ℂ) :
    ∃ N, stNorm cf x = .ok N ∧ stNorm cf (stScale cf c x) = .ok (‖c‖ * N) := by
  obtain ⟨n1, n2, n3, h, g1, g2, g2', g3, g3'⟩ := stNorm_eq cf x
  obtain ⟨m1, m2, m3, h', k1, k2, k2', k3, k3'⟩ := stNorm_eq cf (stScale cf c x)
  refine ⟨_, h, ?_⟩
  rw [h']
  have mc : ∀ l : List ℂ, l.map (· * c) = l.map (c * ·) := fun l => by simp [mul_comm]
  have hom : ∀ a p t n m, classNorm 0 a p t = .ok n → classNorm 0 (a.map (· * c)) (p.map (· * c)) (t.map (· * c)) = .ok m →
      m = ‖c‖ * n := by
    intro a p t n m e1 e2
    obtain ⟨N, f1, -, -, -, f5⟩ := c48_max_partial a p t
    rw [e1] at f1; cases f1
    rw [mc, mc, mc, f5 c] at e2
    cases e2; rfl
  have hd' : cf.maxDiag > 0 := hd
  have E1 : m1 = ‖c‖ * n1 := by
    simp only [stScale, vertUn, rvUn, hd', if_true, bufUn] at k1
    exact hom _ _ _ _ _ g1 k1
  have E2 : m2 = ‖c‖ * n2 := by
    by_cases c2 : 2 ≤ cf.maxDiag
    · have c2' : cf.maxDiag > 1 := c2
      have := k2 c2
      simp only [stScale, vertUn, rvUn, c2', if_true, bufUn] at this
      exact hom _ _ _ _ _ (g2 c2) this
    · rw [g2' c2, k2' c2, mul_zero]
  have E3 : m3 = ‖c‖ * n3 := by
    by_cases c3 : 3 ≤ cf.maxDiag
    · have c3' : cf.maxDiag > 2 := c3
      have := k3 c3
      simp only [stScale, vertUn, rvUn, c3', if_true, bufUn] at this
      exact hom _ _ _ _ _ (g3 c3) this
    · rw [g3' c3, k3' c3, mul_zero]
  have Es : seNorm 0 (stScale cf c x).se.sigma.data (stScale cf c x).se.asymp =
      ‖c‖ * seNorm 0 x.se.sigma.data x.se.asymp := by
    have := (c48_selfenergy 0 x.se.sigma.data x.se.asymp).2 c
    rw [← this]
    simp [stScale, seScale, bufUn, mc, mul_comm]
  rw [E1, E2, E3, Es, mul_max_of_nonneg _ _ (norm_nonneg c)]
  congr 2
  ring

/-- C48. With a power the three channels must have equally many entries; otherwise an assertion fails. -/
theorem c48_sizes (p : Nat) (hp : p ≠ 0) (a b t : List ℂ) :
    classNorm p a b t = .error .assertion ↔ ¬ (a.length = b.length ∧ b.length = t.length) := by
  simp only [classNorm, hp, if_false]
  split_ifs with h <;> simp [h]

/-- C49. Combining buffers with different numbers of frequencies or entries fails an assertion; nothing is read out of
bounds. -/
theorem c49_different_sizes {V : Type} (f : V → V → V) (x y : Buf V) :
    (x.prim.length ≠ y.prim.length → bufBin f x y = .error .assertion) ∧
    (x.prim = y.prim → x.sec = y.sec → x.data.length ≠ y.data.length → bufBin f x y = .error .assertion) := by
  constructor
  · intro h
    simp [bufBin, checkGrid, gridsDiffer, h, bind, Except.bind]
  · intro h1 h2 h3
    cases hd : x.twoDim <;>
      simp [bufBin, checkGrid, ← h1, ← h2, gridsDiffer_self, arrBin, h3, hd, bind, Except.bind, pure, Except.pure]

/-- C47 (states). Dividing a state by a state divides the self-energy, its asymptotic value and every kept class entry by entry,
but leaves the bare interaction. -/
theorem c47_state_refuted {K : Type} [Field K] (cf : Conf) (x y : St K) (h : x.vertex.Compatible cf y.vertex)
    (hs : SameGrid x.se.sigma y.se.sigma) :
    ∃ z, stDiv cf x y = .ok z ∧ z.vertex.irred = x.vertex.irred ∧
      (z.vertex.buffers cf).map Buf.data = List.zipWith (List.zipWith (· / ·)) ((x.vertex.buffers cf).map Buf.data)
        ((y.vertex.buffers cf).map Buf.data) ∧
      z.se.sigma.data = List.zipWith (· / ·) x.se.sigma.data y.se.sigma.data ∧ z.se.asymp = x.se.asymp / y.se.asymp := by
  obtain ⟨v, hv, hd⟩ := c47_partial cf x.vertex y.vertex h
  refine ⟨⟨v, ⟨⟨x.se.sigma.prim, x.se.sigma.sec, x.se.sigma.twoDim,
    List.zipWith (· / ·) x.se.sigma.data y.se.sigma.data⟩, x.se.asymp / y.se.asymp⟩⟩, ?_,
    c47_bare_refuted cf _ _ _ hv, hd, rfl, rfl⟩
  simp [stDiv, hv, seBin, bufBin_ok _ hs, bind, Except.bind, pure, Except.pure]

/-- C82 (no NaN present). The norm is the larger of the self-energy part and the sum of the maxima of the classes. -/
theorem c82_finite_partial (s a x1 y1 z1 x2 y2 z2 x3 y3 z3 : ℚ) :
    stNormNaN (some s) (some a) (some x1, some y1, some z1) (some x2, some y2, some z2) (some x3, some y3, some z3) =
      some (max (max s a) (max (max x1 y1) z1 + max (max x2 y2) z2 + max (max x3 y3) z3)) := by
  have cl : ∀ x y z : ℚ, classNormNaN (some x) (some y) (some z) = some (max (max x y) z) := by
    intro x y z
    simp only [classNormNaN, ltNaN, decide_eq_true_eq]
    by_cases h : x < y
    · rw [if_pos h, max_eq_right h.le]
      by_cases h' : y < z
      · simp [h', max_eq_right h'.le]
      · simp [h', max_eq_left (not_lt.mp h')]
    · rw [if_neg h, max_eq_left (not_lt.mp h)]
      by_cases h' : x < z
      · simp [h', max_eq_right h'.le]
      · simp [h', max_eq_left (not_lt.mp h')]
  have sm : ∀ x y : ℚ, stdMax (some x) (some y) = some (max x y) := by
    intro x y
    simp only [stdMax, ltNaN, decide_eq_true_eq]
    by_cases h : x < y
    · simp [h, max_eq_right h.le]
    · simp [h, max_eq_left (not_lt.mp h)]
  simp only [stNormNaN, cl, sm, addNaN]

end Verif.State
