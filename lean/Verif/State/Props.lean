import Verif.State.Spec
import Mathlib.Data.List.Forall2
import Mathlib.Algebra.Order.Ring.Abs
import Mathlib.Tactic.NormNum
import Mathlib.Tactic.Ring
import Mathlib.Tactic.Linarith

namespace Verif.State

variable {V : Type}

theorem gridsDiffer_self (a : List ℚ) : gridsDiffer a a = .ok false := by
  have h : (List.zipWith (fun x y => |x - y|) a a).any (fun d => decide (d > 1 / 10^10)) = false := by
    rw [List.zipWith_self, List.any_map, List.any_eq_false]
    intro x _
    simp only [Function.comp, sub_self, abs_zero, gt_iff_lt, decide_eq_true_eq, not_lt]
    positivity
  simp [gridsDiffer, h]

theorem bufBin_ok {x y : Buf V} (f : V → V → V) (h : SameGrid x y) :
    bufBin f x y = .ok ⟨x.prim, x.sec, x.twoDim, List.zipWith f x.data y.data⟩ := by
  obtain ⟨h1, h2, h3⟩ := h
  cases hd : x.twoDim <;>
    simp [bufBin, checkGrid, ← h1, ← h2, gridsDiffer_self, arrBin, h3, hd, bind, Except.bind, pure,
      Except.pure]

theorem forall₂_kept {cf : Conf} {x y : RV V}
    (h : List.Forall₂ SameGrid (x.kept cf) (y.kept cf)) :
    (1 ≤ cf.maxDiag → SameGrid x.k1 y.k1) ∧ (2 ≤ cf.maxDiag → SameGrid x.k2 y.k2) ∧
      (cf.debugSymm = true ∧ 2 ≤ cf.maxDiag → SameGrid x.k2b y.k2b) ∧ (3 ≤ cf.maxDiag → SameGrid x.k3 y.k3) := by
  simp only [RV.kept] at h
  split_ifs at h <;> simp at h <;> refine ⟨fun _ => ?_, fun _ => ?_, fun _ => ?_, fun _ => ?_⟩ <;>
    first | omega | tauto

/-- What a channel-wise operation gives. -/
def rvZip (cf : Conf) (f : V → V → V) (x y : RV V) : RV V :=
  let z (u v : Buf V) : Buf V := ⟨u.prim, u.sec, u.twoDim, List.zipWith f u.data v.data⟩
  ⟨if 1 ≤ cf.maxDiag then z x.k1 y.k1 else x.k1, if 2 ≤ cf.maxDiag then z x.k2 y.k2 else x.k2,
   if cf.debugSymm ∧ 2 ≤ cf.maxDiag then z x.k2b y.k2b else x.k2b,
   if 3 ≤ cf.maxDiag then z x.k3 y.k3 else x.k3⟩

theorem rvBin_ok {cf : Conf} {x y : RV V} (f : V → V → V)
    (h : List.Forall₂ SameGrid (x.kept cf) (y.kept cf)) : rvBin cf f x y = .ok (rvZip cf f x y) := by
  obtain ⟨h1, h2, h3, h4⟩ := forall₂_kept h
  have e1 : bufIf (cf.maxDiag > 0) f x.k1 y.k1 = .ok (rvZip cf f x y).k1 := by
    by_cases hc : cf.maxDiag > 0
    · rw [bufIf, if_pos hc, bufBin_ok f (h1 hc)]
      exact congrArg _ (if_pos hc).symm
    · rw [bufIf, if_neg hc]
      exact congrArg _ (if_neg hc).symm
  have e2 : bufIf (cf.maxDiag > 1) f x.k2 y.k2 = .ok (rvZip cf f x y).k2 := by
    by_cases hc : cf.maxDiag > 1
    · rw [bufIf, if_pos hc, bufBin_ok f (h2 hc)]
      exact congrArg _ (if_pos hc).symm
    · rw [bufIf, if_neg hc]
      exact congrArg _ (if_neg hc).symm
  have e3 : bufIf (cf.debugSymm = true ∧ cf.maxDiag > 1) f x.k2b y.k2b = .ok (rvZip cf f x y).k2b := by
    by_cases hc : cf.debugSymm = true ∧ cf.maxDiag > 1
    · rw [bufIf, if_pos hc, bufBin_ok f (h3 hc)]
      exact congrArg _ (if_pos hc).symm
    · rw [bufIf, if_neg hc]
      exact congrArg _ (if_neg hc).symm
  have e4 : bufIf (cf.maxDiag > 2) f x.k3 y.k3 = .ok (rvZip cf f x y).k3 := by
    by_cases hc : cf.maxDiag > 2
    · rw [bufIf, if_pos hc, bufBin_ok f (h4 hc)]
      exact congrArg _ (if_pos hc).symm
    · rw [bufIf, if_neg hc]
      exact congrArg _ (if_neg hc).symm
  simp only [rvBin, e1, e2, e3, e4, bind, Except.bind, pure, Except.pure]

theorem kept_length (cf : Conf) (x y : RV V) : (x.kept cf).length = (y.kept cf).length := by
  simp only [RV.kept]; split_ifs <;> simp

theorem rvZip_data (cf : Conf) (f : V → V → V) (x y : RV V) :
    ((rvZip cf f x y).kept cf).map Buf.data
      = List.zipWith (List.zipWith f) ((x.kept cf).map Buf.data) ((y.kept cf).map Buf.data) := by
  simp only [RV.kept, rvZip]
  split_ifs <;> simp

theorem rvZip_grids (cf : Conf) (f : V → V → V) (x y : RV V) :
    ((rvZip cf f x y).kept cf).map (fun b => (b.prim, b.sec)) = (x.kept cf).map (fun b => (b.prim, b.sec)) := by
  simp only [RV.kept, rvZip]
  split_ifs <;> simp

theorem forall₂_split {α : Type} {r : α → α → Prop} {a b c d : List α} (hl : a.length = c.length)
    (h : List.Forall₂ r (a ++ b) (c ++ d)) : List.Forall₂ r a c ∧ List.Forall₂ r b d := by
  induction a generalizing c with
  | nil =>
    cases c with
    | nil => exact ⟨.nil, h⟩
    | cons => simp at hl
  | cons x xs ih =>
    cases c with
    | nil => simp at hl
    | cons y ys =>
      simp only [List.cons_append, List.forall₂_cons] at h
      obtain ⟨h1, h2⟩ := ih (by simpa using hl) h.2
      exact ⟨.cons h.1 h1, h2⟩

theorem vertBin_ok {cf : Conf} {x y : Vert V} (f : V → V → V) (h : x.Compatible cf y) :
    ∃ z, vertBin cf f x y = .ok z ∧
      z.numbers cf = List.zipWith (List.zipWith f) (x.numbers cf) (y.numbers cf) ∧
      (z.buffers cf).map (fun b => (b.prim, b.sec)) = (x.buffers cf).map (fun b => (b.prim, b.sec)) := by
  obtain ⟨hi, hb⟩ := h
  simp only [Vert.buffers] at hb
  obtain ⟨hap, ht⟩ := forall₂_split (by simp [kept_length cf x.a y.a, kept_length cf x.p y.p]) hb
  obtain ⟨ha, hp⟩ := forall₂_split (kept_length cf x.a y.a) hap
  refine ⟨⟨List.zipWith f x.irred y.irred, rvZip cf f x.a y.a, rvZip cf f x.p y.p, rvZip cf f x.t y.t⟩,
    ?_, ?_, ?_⟩
  · simp only [vertBin, arrBin, hi, if_true, rvBin_ok f ha, rvBin_ok f hp, rvBin_ok f ht, bind,
      Except.bind, pure, Except.pure]
  · simp only [Vert.numbers, Vert.buffers, List.map_append, rvZip_data, List.zipWith_cons_cons]
    rw [List.zipWith_append (by simp [kept_length cf x.a y.a, kept_length cf x.p y.p]),
      List.zipWith_append (by simp [kept_length cf x.a y.a])]
  · simp only [Vert.buffers, List.map_append, rvZip_grids]

theorem numbers_length (cf : Conf) (x y : Vert V) : (x.numbers cf).length = (y.numbers cf).length := by
  simp [Vert.numbers, Vert.buffers, kept_length cf x.a y.a, kept_length cf x.p y.p, kept_length cf x.t y.t]

theorem stBin_ok {cf : Conf} {x y : St V} (f : V → V → V) (h : x.Compatible cf y) :
    ∃ z, stBin cf f x y = .ok z ∧
      z.numbers cf = List.zipWith (List.zipWith f) (x.numbers cf) (y.numbers cf) ∧
      (z.buffers cf).map (fun b => (b.prim, b.sec)) = (x.buffers cf).map (fun b => (b.prim, b.sec)) := by
  obtain ⟨hi, hb⟩ := h
  simp only [St.buffers] at hb
  obtain ⟨hv, hs⟩ := forall₂_split
    (by simp [Vert.buffers, kept_length cf x.vertex.a y.vertex.a, kept_length cf x.vertex.p y.vertex.p,
      kept_length cf x.vertex.t y.vertex.t]) hb
  obtain ⟨z, h1, h2, h3⟩ := vertBin_ok f ⟨hi, hv⟩
  have hs' : SameGrid x.se.sigma y.se.sigma := by simpa using hs
  refine ⟨⟨z, ⟨⟨x.se.sigma.prim, x.se.sigma.sec, x.se.sigma.twoDim,
    List.zipWith f x.se.sigma.data y.se.sigma.data⟩, f x.se.asymp y.se.asymp⟩⟩, ?_, ?_, ?_⟩
  · simp only [stBin, h1, seBin, bufBin_ok f hs', bind, Except.bind, pure, Except.pure]
  · simp only [St.numbers, h2]
    rw [List.zipWith_append (numbers_length cf _ _)]
    simp
  · simp only [St.buffers, List.map_append, h3]
    simp

theorem rvUn_data (cf : Conf) (f : V → V) (x : RV V) :
    ((rvUn cf f x).kept cf).map Buf.data = ((x.kept cf).map Buf.data).map (List.map f) := by
  have e1 : (cf.maxDiag > 0) = (1 ≤ cf.maxDiag) := rfl
  have e2 : (cf.maxDiag > 1) = (2 ≤ cf.maxDiag) := rfl
  have e3 : (cf.maxDiag > 2) = (3 ≤ cf.maxDiag) := rfl
  simp only [RV.kept, rvUn, bufUn, e1, e2, e3]
  split_ifs <;> simp

theorem vertUn_numbers (cf : Conf) (f : V → V) (x : Vert V) :
    (vertUn cf f x).numbers cf = (x.numbers cf).map (List.map f) := by
  simp [Vert.numbers, Vert.buffers, vertUn, rvUn_data]

/-- C49. Adding or subtracting two states on the same frequency grids succeeds and acts on every number of
the state — bare interaction, every kept class of every channel, self-energy and its asymptotic value — and
keeps the frequency grids; scaling by a number scales every one of them. -/
theorem c49_linear {K : Type} [Field K] (cf : Conf) (x y : St K) (α : K) (h : x.Compatible cf y) :
    (∃ z, stBin cf (· + ·) x y = .ok z ∧
      z.numbers cf = List.zipWith (List.zipWith (· + ·)) (x.numbers cf) (y.numbers cf) ∧
      (z.buffers cf).map (fun b => (b.prim, b.sec)) = (x.buffers cf).map (fun b => (b.prim, b.sec))) ∧
    (∃ z, stBin cf (· - ·) x y = .ok z ∧
      z.numbers cf = List.zipWith (List.zipWith (· - ·)) (x.numbers cf) (y.numbers cf) ∧
      (z.buffers cf).map (fun b => (b.prim, b.sec)) = (x.buffers cf).map (fun b => (b.prim, b.sec))) ∧
    (stScale cf α x).numbers cf = (x.numbers cf).map (List.map (· * α)) := by
  refine ⟨stBin_ok _ h, stBin_ok _ h, ?_⟩
  simp only [St.numbers, stScale, seScale, List.map_append, vertUn_numbers]
  simp [bufUn]

/-- C49, laws: addition commutes, subtraction undoes addition, scaling by one and by zero. -/
theorem c49_laws {K : Type} [Field K] (cf : Conf) (x y : St K) (h : x.Compatible cf y)
    (h' : y.Compatible cf x) :
    (∃ z z', stBin cf (· + ·) x y = .ok z ∧ stBin cf (· + ·) y x = .ok z' ∧ z.numbers cf = z'.numbers cf) ∧
      (stScale cf 1 x).numbers cf = x.numbers cf ∧
      (stScale cf 0 x).numbers cf = (x.numbers cf).map (List.map fun _ => 0) := by
  obtain ⟨z, h1, h2, -⟩ := stBin_ok (· + ·) h
  obtain ⟨z', h1', h2', -⟩ := stBin_ok (· + ·) h'
  refine ⟨⟨z, z', h1, h1', ?_⟩, ?_, ?_⟩
  · rw [h2, h2', List.zipWith_comm_of_comm]
    intro a b
    rw [List.zipWith_comm_of_comm]
    exact add_comm
  · rw [(c49_linear cf x y 1 h).2.2]; simp
  · rw [(c49_linear cf x y 0 h).2.2]; simp

/-- C49. Combining buffers whose grids differ noticeably is refused, whatever the operation. -/
theorem c49_different_grids (f : V → V → V) (x y : Buf V) (i : Nat) (hl : x.prim.length = y.prim.length)
    (hi : i < x.prim.length) (hd : |x.prim[i] - y.prim[i]| > 1 / 10^10) :
    bufBin f x y = .error .exception := by
  have h : (List.zipWith (fun x y => |x - y|) x.prim y.prim).any (fun d => decide (d > 1 / 10^10)) = true := by
    rw [List.any_eq_true]
    refine ⟨|x.prim[i] - y.prim[i]|, ?_, by simpa using hd⟩
    rw [List.mem_iff_getElem]
    exact ⟨i, by simpa [hl] using hl ▸ hi, by simp⟩
  have hg : gridsDiffer x.prim y.prim = .ok true := by
    rw [gridsDiffer, if_neg (by simpa using hl), h]
  simp [bufBin, checkGrid, hg, bind, Except.bind, throw, throwThe, MonadExceptOf.throw]

/-! ### Division -/

/-- C47 fails: dividing vertices element by element leaves the bare interaction as it was. -/
theorem c47_bare_refuted {K : Type} [Field K] (cf : Conf) (x y z : Vert K) (h : vertDiv cf x y = .ok z) :
    z.irred = x.irred := by
  simp only [vertDiv, bind, Except.bind] at h
  split at h
  · cases h
  · split at h
    · cases h
    · split at h
      · cases h
      · cases h; rfl

/-- C47 (all parts but the bare interaction). Every class of every channel is divided element by element. -/
theorem c47_partial {K : Type} [Field K] (cf : Conf) (x y : Vert K) (h : x.Compatible cf y) :
    ∃ z, vertDiv cf x y = .ok z ∧
      (z.buffers cf).map Buf.data
        = List.zipWith (List.zipWith (· / ·)) ((x.buffers cf).map Buf.data) ((y.buffers cf).map Buf.data) := by
  obtain ⟨hi, hb⟩ := h
  simp only [Vert.buffers] at hb
  obtain ⟨hap, ht⟩ := forall₂_split (by simp [kept_length cf x.a y.a, kept_length cf x.p y.p]) hb
  obtain ⟨ha, hp⟩ := forall₂_split (kept_length cf x.a y.a) hap
  refine ⟨⟨x.irred, rvZip cf (· / ·) x.a y.a, rvZip cf (· / ·) x.p y.p, rvZip cf (· / ·) x.t y.t⟩, ?_, ?_⟩
  · simp only [vertDiv, rvBin_ok (· / ·) ha, rvBin_ok (· / ·) hp, rvBin_ok (· / ·) ht, bind,
      Except.bind, pure, Except.pure]
  · simp only [Vert.buffers, List.map_append, rvZip_data]
    rw [List.zipWith_append (by simp [kept_length cf x.a y.a, kept_length cf x.p y.p]),
      List.zipWith_append (by simp [kept_length cf x.a y.a])]

/-! ### Modulus -/

/-- C50 (self-energy on the grid only). -/
theorem c50_partial (cf : Conf) (abs : V → V) (x : St V) :
    (stAbs cf abs x).se.sigma.data = x.se.sigma.data.map abs := rfl

/-- C50 fails: the vertex and the asymptotic value of the self-energy are returned unchanged. -/
theorem c50_vertex_refuted (cf : Conf) (abs : V → V) (x : St V) :
    (stAbs cf abs x).vertex.numbers cf = x.vertex.numbers cf ∧ (stAbs cf abs x).se.asymp = x.se.asymp :=
  ⟨rfl, rfl⟩

/-! ### Vertices with two stored halves, shifts by a number -/

/-- C80 (symmetric vertices; sums of all vertices). -/
theorem c80_partial {K : Type} [Field K] (cf : Conf) (x y : GVert K) (α : K)
    (h1 : x.half1.Compatible cf y.half1) (h2 : x.half2.Compatible cf y.half2) :
    (∃ z, gBin cf (· + ·) x y = .ok z ∧
      z.half1.numbers cf = List.zipWith (List.zipWith (· + ·)) (x.half1.numbers cf) (y.half1.numbers cf) ∧
      (x.nonSym = true → z.half2.numbers cf
        = List.zipWith (List.zipWith (· + ·)) (x.half2.numbers cf) (y.half2.numbers cf))) ∧
    (gScale cf α x).half1.numbers cf = (x.half1.numbers cf).map (List.map (· * α)) := by
  obtain ⟨z1, a1, b1, -⟩ := vertBin_ok (· + ·) h1
  obtain ⟨z2, a2, b2, -⟩ := vertBin_ok (· + ·) h2
  refine ⟨?_, by simp [gScale, vertUn_numbers]⟩
  cases hs : x.nonSym
  · exact ⟨⟨x.nonSym, z1, x.half2⟩, by simp [gBin, a1, hs, bind, Except.bind, pure, Except.pure], b1,
      by simp⟩
  · exact ⟨⟨x.nonSym, z1, z2⟩, by simp [gBin, a1, a2, hs, bind, Except.bind, pure, Except.pure], b1,
      fun _ => b2⟩

/-- C80 fails: scaling a non-symmetric vertex by `α` adds `α` to every number of the second half; even
scaling by one changes it. -/
theorem c80_second_half_refuted {K : Type} [Field K] (cf : Conf) (x : GVert K) (hs : x.nonSym = true) (α : K) :
    (gScale cf α x).half2.numbers cf = (x.half2.numbers cf).map (List.map (· + α)) ∧
      (∀ u, x.half2.irred = [u] → (gScale cf 1 x).half2.irred = [u + 1] ∧ [u + 1] ≠ [u]) := by
  refine ⟨by simp [gScale, hs, vertUn_numbers], fun u hu => ⟨by simp [gScale, hs, vertUn, hu], by simp⟩⟩

/-- C81 (all parts but the asymptotic value of the self-energy). -/
theorem c81_partial {K : Type} [Field K] (cf : Conf) (x : St K) (α : K) :
    (stShift cf α x).vertex.numbers cf = (x.vertex.numbers cf).map (List.map (· + α)) ∧
      (stShift cf α x).se.sigma.data = x.se.sigma.data.map (· + α) := by
  simp [stShift, vertUn_numbers, seShift, bufUn]

/-- C81 fails: the asymptotic (Hartree) value is not shifted. -/
theorem c81_asymptotic_refuted {K : Type} [Field K] (cf : Conf) (x : St K) (α : K) (hα : α ≠ 0) :
    (stShift cf α x).se.asymp = x.se.asymp ∧ (stShift cf α x).se.asymp ≠ x.se.asymp + α := by
  simp [stShift, seShift, hα]

/-! ### NaN -/

/-- C82 (NaN in the part compared first). If the largest entry of the self-energy is NaN the norm of the
state is NaN. -/
theorem c82_partial (asymp : Option ℚ) (k1 k2 k3 : Option ℚ × Option ℚ × Option ℚ) :
    stNormNaN none asymp k1 k2 k3 = none := by
  simp [stNormNaN, stdMax, ltNaN]

/-- C82 fails: a vertex full of NaN does not show in the norm of the state, nor does a NaN in the second or
third channel show in the norm of a class. -/
theorem c82_vertex_refuted (s a : ℚ) (k2 k3 : Option ℚ × Option ℚ × Option ℚ) (x y z : ℚ) :
    stNormNaN (some s) (some a) (none, none, none) k2 k3 = some (if s < a then a else s) ∧
      classNormNaN (some x) none (some z) = some (if x < z then z else x) ∧
      classNormNaN (some x) (some y) none = some (if x < y then y else x) := by
  refine ⟨?_, ?_, ?_⟩
  · by_cases h : s < a <;> simp [stNormNaN, stdMax, ltNaN, classNormNaN, addNaN, h]
  · by_cases h : x < z <;> simp [ltNaN, classNormNaN, h]
  · by_cases h : x < y <;> simp [ltNaN, classNormNaN, h]

/-! ### The hypotheses can be met -/

/-- A buffer, channel and state with a few entries. -/
def exBuf (l : List ℚ) : Buf ℚ := ⟨[-1, 0, 1], [-2, 2], true, l⟩

def exRV (u : ℚ) : RV ℚ := ⟨exBuf [u, 1], exBuf [u, 2], exBuf [3, u], exBuf [u]⟩

def exSt (u : ℚ) : St ℚ := ⟨⟨[u], exRV u, exRV (u + 1), exRV (u + 2)⟩, ⟨exBuf [u, 5], u⟩⟩

example : (exSt 1).Compatible ⟨3, true⟩ (exSt 7) := by
  simp [St.Compatible, St.buffers, Vert.buffers, RV.kept, exSt, exRV, SameGrid, exBuf]

example : (stScale ⟨3, true⟩ 2 (exSt 1)).numbers ⟨3, true⟩ ≠ (exSt 1).numbers ⟨3, true⟩ := by
  simp [St.numbers, Vert.numbers, stScale, vertUn, exSt]

example : bufBin (· + ·) (⟨[0, 1], [], false, [1]⟩ : Buf ℚ) ⟨[0, 2], [], false, [1]⟩ = .error .exception :=
  c49_different_grids _ _ _ 1 rfl (by simp) (by norm_num)

end Verif.State
