import Verif.Buffer.Model
import Verif.FinDiff.LemmasArr
import Mathlib.Algebra.BigOperators.Fin
import Mathlib.Order.Bounds.Basic
import Mathlib.Data.List.GetD
import Mathlib.Tactic.Linarith
import Mathlib.Tactic.FieldSimp
import Mathlib.Tactic.IntervalCases

/-! C124: the measures of roughness that the grid optimisation minimises. -/
namespace Verif.Buffer
open Verif Verif.Index Verif.MultiArray Verif.FinDiff

theorem foldl_max_spec {α : Type} (f : α → ℝ) (l : List α) (a : ℝ) :
    a ≤ l.foldl (fun m z => max m (f z)) a ∧ (∀ z ∈ l, f z ≤ l.foldl (fun m z => max m (f z)) a) ∧
    (l.foldl (fun m z => max m (f z)) a = a ∨ ∃ z ∈ l, l.foldl (fun m z => max m (f z)) a = f z) := by
  induction l generalizing a with
  | nil => simp
  | cons x l ih =>
    obtain ⟨h1, h2, h3⟩ := ih (max a (f x))
    simp only [List.foldl_cons]
    refine ⟨(le_max_left _ _).trans h1, ?_, ?_⟩
    · intro z hz
      rcases List.mem_cons.1 hz with rfl | hz
      · exact (le_max_right _ _).trans h1
      · exact h2 z hz
    · rcases h3 with h | ⟨z, hz, h⟩
      · rcases le_total a (f x) with hm | hm
        · right; exact ⟨x, by simp, by rw [h, max_eq_right hm]⟩
        · left; rw [h, max_eq_left hm]
      · right; exact ⟨z, by simp [hz], h⟩

/-- `max_norm` is the largest modulus. -/
theorem maxNorm_isGreatest {l : List ℂ} (h : l ≠ []) : IsGreatest {x | ∃ z ∈ l, x = ‖z‖} (maxNorm l) := by
  obtain ⟨h1, h2, h3⟩ := foldl_max_spec (fun z : ℂ => ‖z‖) l 0
  refine ⟨?_, ?_⟩
  · rcases h3 with h0 | ⟨z, hz, h0⟩
    · obtain ⟨z, l', rfl⟩ := List.exists_cons_of_ne_nil h
      refine ⟨z, by simp, ?_⟩
      apply le_antisymm
      · show maxNorm (z :: l') ≤ _
        unfold maxNorm; rw [h0]; exact norm_nonneg z
      · exact h2 z (by simp)
    · exact ⟨z, hz, h0⟩
  · rintro x ⟨z, hz, rfl⟩
    exact h2 z hz

/-- Sum of squares accumulated by the code. -/
theorem addSquares_fold (terms : List (ℝ × List ℂ)) (N : Nat) (hN : ∀ t ∈ terms, t.2.length = N) (zero : List ℂ)
    (hz : zero.length = N) :
    (terms.foldl (fun acc t => addSquares acc t.1 t.2) zero).length = N ∧
    ∀ k < N, (terms.foldl (fun acc t => addSquares acc t.1 t.2) zero).getD k 0
      = zero.getD k 0 + (terms.map fun t => t.2.getD k 0 * t.2.getD k 0 * (t.1 : ℂ)).sum := by
  induction terms generalizing zero with
  | nil => simp [hz]
  | cons t ts ih =>
    have ht := hN t (by simp)
    have hl : (addSquares zero t.1 t.2).length = N := by simp [addSquares, hz, ht]
    obtain ⟨i1, i2⟩ := ih (fun t h => hN t (by simp [h])) (addSquares zero t.1 t.2) hl
    refine ⟨i1, fun k hk => ?_⟩
    rw [List.foldl_cons, i2 k hk]
    have : (addSquares zero t.1 t.2).getD k 0 = zero.getD k 0 + t.2.getD k 0 * t.2.getD k 0 * (t.1 : ℂ) := by
      simp [addSquares, List.getElem?_eq_getElem, hz, ht, hk]
    rw [this]; simp [add_assoc]

/-- The modulus of a sum of squares, if the numbers are real or there is a single one. -/
theorem norm_sum_squares (L : List (ℝ × ℂ)) (hc : ∀ t ∈ L, 0 ≤ t.1)
    (h : (∀ t ∈ L, t.2.im = 0) ∨ L.length ≤ 1) :
    ‖(L.map fun t => t.2 * t.2 * (t.1 : ℂ)).sum‖ = (L.map fun t => t.1 * ‖t.2‖ ^ 2).sum := by
  rcases h with h | h
  · have e : (L.map fun t => t.2 * t.2 * (t.1 : ℂ)).sum
        = (((L.map fun t => t.1 * ‖t.2‖ ^ 2).sum : ℝ) : ℂ) := by
      clear hc
      induction L with
      | nil => simp
      | cons t ts ih =>
        rw [List.map_cons, List.sum_cons, ih (fun t h' => h t (by simp [h']))]
        have h0 := h t (by simp)
        obtain ⟨x, hx⟩ : ∃ x : ℝ, t.2 = x := ⟨t.2.re, Complex.ext rfl (by simp [h0])⟩
        rw [List.map_cons, List.sum_cons, hx, Complex.norm_real, Real.norm_eq_abs, sq_abs]; push_cast; ring
    rw [e, Complex.norm_real, Real.norm_eq_abs, abs_of_nonneg]
    apply List.sum_nonneg
    intro x hx
    obtain ⟨t, ht, rfl⟩ := List.mem_map.1 hx
    exact mul_nonneg (hc t ht) (by positivity)
  · rcases L with _ | ⟨t, _ | ⟨u, L⟩⟩
    · simp
    · have := hc t (by simp)
      simp [sq, abs_of_nonneg this]; ring
    · simp at h

/-- Largest entry of the accumulated sum. -/
theorem squares_greatest (terms : List (ℝ × List ℂ)) (N : Nat) (hpos : 0 < N) (hN : ∀ t ∈ terms, t.2.length = N)
    (hc : ∀ t ∈ terms, 0 ≤ t.1) (hr : (∀ t ∈ terms, ∀ z ∈ t.2, z.im = 0) ∨ terms.length ≤ 1)
    (zero : List ℂ) (hz : zero = List.replicate N 0) :
    IsGreatest {x : ℝ | ∃ k < N, x = (terms.map fun t => t.1 * ‖t.2.getD k 0‖ ^ 2).sum}
      (maxNorm (terms.foldl (fun acc t => addSquares acc t.1 t.2) zero)) := by
  obtain ⟨h1, h2⟩ := addSquares_fold terms N hN zero (by simp [hz])
  set l := terms.foldl (fun acc t => addSquares acc t.1 t.2) zero with hl
  have hne : l ≠ [] := by intro h; rw [h] at h1; simp at h1; omega
  have val : ∀ k < N, ‖l.getD k 0‖ = (terms.map fun t => t.1 * ‖t.2.getD k 0‖ ^ 2).sum := by
    intro k hk
    rw [h2 k hk, hz]
    have := norm_sum_squares (terms.map fun t => (t.1, t.2.getD k 0)) (by
      intro t ht
      obtain ⟨u, hu, rfl⟩ := List.mem_map.1 ht
      exact hc u hu) (by
      rcases hr with hr | hr
      · left
        intro t ht
        obtain ⟨u, hu, rfl⟩ := List.mem_map.1 ht
        have : k < u.2.length := by rw [hN u hu]; exact hk
        show (u.2.getD k 0).im = 0
        rw [List.getD_eq_getElem _ _ this]
        exact hr u hu _ (List.getElem_mem _)
      · right; simpa using hr)
    simp only [List.map_map, Function.comp_def] at this
    rw [← this]
    simp [hk]
  obtain ⟨⟨z, hz1, hz2⟩, g2⟩ := maxNorm_isGreatest hne
  refine ⟨?_, ?_⟩
  · obtain ⟨k, hk, rfl⟩ := List.getElem_of_mem hz1
    refine ⟨k, by omega, ?_⟩
    rw [← val k (by omega), hz2, List.getD_eq_getElem]
  · rintro x ⟨k, hk, rfl⟩
    rw [← val k hk]
    apply g2
    have : k < l.length := by omega
    exact ⟨l[k], List.getElem_mem _, by rw [List.getD_eq_getElem _ _ this]⟩

/-- Derivative of well-formed data along an axis with at least three points. -/
theorem deriv_exists {data : MArr ℂ} (hw : data.WF) {a : Nat} (ha : 2 < data.len.getD a 0)
    (hpos : 0 < data.len.prod) :
    ∃ d, partialDerivArr ℝ data a = .ok d ∧ d.WF ∧ d.len = data.len ∧
      ((∀ z ∈ data.elems, z.im = 0) → ∀ z ∈ d.elems, z.im = 0) := by
  have hl : a < data.len.length := by
    by_contra h
    rw [List.getD_eq_default _ _ (by omega)] at ha; omega
  have h2 : 2 < data.len[a] := by rwa [List.getD_eq_getElem _ _ hl] at ha
  refine ⟨_, partialDerivArr_eq data hw a hl h2 hpos, ⟨hw.1, by simp, hw.2.2⟩, rfl, ?_⟩
  intro hr z hz
  have hg : ∀ k, (data.elems.getD k 0).im = 0 := by
    intro k
    by_cases hk : k < data.elems.length
    · rw [List.getD_eq_getElem _ _ hk]; exact hr _ (List.getElem_mem _)
    · rw [List.getD_eq_default _ _ (by omega)]; rfl
  obtain ⟨k, -, rfl⟩ := List.mem_map.1 hz
  unfold colVal
  simp only []
  split_ifs <;> simp only [Complex.add_im, Complex.smul_im, hg, smul_zero, add_zero]

theorem mapM_range_ok {α : Type} (f : Nat → Res α) (g : Nat → α) (n : Nat) (h : ∀ i < n, f i = .ok (g i)) :
    (List.range n).mapM f = .ok ((List.range n).map g) :=
  mapM_ok (fun i hi => h i (List.mem_range.1 hi))

theorem maxNorm_pos {l : List ℂ} (h : ∃ z ∈ l, z ≠ 0) : 0 < maxNorm l := by
  obtain ⟨z, hz, h0⟩ := h
  have := (maxNorm_isGreatest (List.ne_nil_of_mem hz)).2 ⟨z, hz, rfl⟩
  exact (norm_pos_iff.2 h0).trans_le this

/-- **C124** (slope). For data that are real, or depend on a single frequency, the measure of the slope is the
largest value over all entries of the sum of the squared derivatives along the frequency axes, in units of the
largest modulus.  Missing: complex data of several frequencies. -/
theorem c124_slope_partial {data : MArr ℂ} (hw : data.WF) {pos dims : Nat}
    (hax : ∀ i < dims, 2 < data.len.getD (pos + i) 0) (hr : (∀ z ∈ data.elems, z.im = 0) ∨ dims ≤ 1)
    (hne : ∃ z ∈ data.elems, z ≠ 0) :
    ∃ (d : Nat → MArr ℂ) (kmax m : ℝ), (∀ i < dims, partialDerivArr ℝ data (pos + i) = .ok (d i)) ∧
      IsGreatest {x | ∃ z ∈ data.elems, x = ‖z‖} kmax ∧ derivMax data pos dims = .ok (some m) ∧
      IsGreatest {x | ∃ k < data.len.prod, x = ((List.range dims).map fun i => (‖(d i).elems.getD k 0‖ / kmax) ^ 2).sum} m := by
  obtain ⟨z0, hz0, hz0'⟩ := hne
  have hlen := hw.2.1
  have hpos : 0 < data.len.prod := by rw [← hlen]; exact List.length_pos_of_mem hz0
  haveI : Nonempty (MArr ℂ) := ⟨data⟩
  choose! d hd using fun i (hi : i < dims) => deriv_exists hw (hax i hi) hpos
  have hk := maxNorm_pos ⟨z0, hz0, hz0'⟩
  have key := squares_greatest ((List.range dims).map fun i => ((1 : ℝ), (d i).elems.map (· * ((1 / maxNorm data.elems : ℝ) : ℂ))))
    data.len.prod hpos (by
      intro t ht
      obtain ⟨i, hi, rfl⟩ := List.mem_map.1 ht
      obtain ⟨-, w, e, -⟩ := hd i (List.mem_range.1 hi)
      simp [w.2.1, e]) (by
      intro t ht
      obtain ⟨i, hi, rfl⟩ := List.mem_map.1 ht
      simp) (by
      rcases hr with hr | hr
      · left
        intro t ht z hz
        obtain ⟨i, hi, rfl⟩ := List.mem_map.1 ht
        obtain ⟨y, hy, rfl⟩ := List.mem_map.1 hz
        have := (hd i (List.mem_range.1 hi)).2.2.2 hr y hy
        rw [Complex.im_mul_ofReal, this, zero_mul]
      · right; simpa using hr) (data.elems.map fun _ => (0 : ℂ)) (by
      rw [← hlen, List.map_const'])
  refine ⟨d, maxNorm data.elems, maxNorm (((List.range dims).map fun i => ((1 : ℝ), (d i).elems.map (· * ((1 / maxNorm data.elems : ℝ) : ℂ)))).foldl
      (fun acc t => addSquares acc t.1 t.2) (data.elems.map fun _ => (0 : ℂ))), fun i hi => (hd i hi).1,
    maxNorm_isGreatest (List.ne_nil_of_mem hz0), ?_, ?_⟩
  · unfold derivMax
    rw [mapM_range_ok _ d dims (fun i hi => (hd i hi).1)]
    simp only [bind, Except.bind, pure, Except.pure, if_neg hk.ne', List.foldl_map]
  · convert key using 6 with x k
    rw [List.map_map]
    apply iff_of_eq
    congr 2
    apply List.map_congr_left
    intro i hi
    simp only [Function.comp]
    have : ((d i).elems.map (· * ((1 / maxNorm data.elems : ℝ) : ℂ))).getD k 0
        = (d i).elems.getD k 0 * ((1 / maxNorm data.elems : ℝ) : ℂ) := by
      by_cases h : k < (d i).elems.length
      · simp [h]
      · simp [List.getElem?_eq_none (not_lt.1 h)]
    rw [this, norm_mul, Complex.norm_real, Real.norm_eq_abs, abs_of_pos (by positivity)]
    field_simp

/-- Terms of the curvature: pairs of axes and their multiplicity. -/
def curvePairs (dims : Nat) : List (Nat × Nat) :=
  (List.range dims).flatMap fun i => (List.range (i + 1)).map fun j => (i, j)

/-- **C124** (curvature). For data that are real, or depend on a single frequency, the measure of the curvature
is the largest value over all entries of the sum of the squared second derivatives along all pairs of frequency
axes (mixed ones twice), in units of the largest modulus. -/
theorem c124_curvature_partial {data : MArr ℂ} (hw : data.WF) {pos dims : Nat}
    (hax : ∀ i < dims, 2 < data.len.getD (pos + i) 0) (hr : (∀ z ∈ data.elems, z.im = 0) ∨ dims ≤ 1)
    (hne : ∃ z ∈ data.elems, z ≠ 0) :
    ∃ (d : Nat → MArr ℂ) (e : Nat → Nat → MArr ℂ) (kmax m : ℝ),
      (∀ i < dims, partialDerivArr ℝ data (pos + i) = .ok (d i)) ∧
      (∀ i < dims, ∀ j < dims, partialDerivArr ℝ (d i) (pos + j) = .ok (e i j)) ∧
      IsGreatest {x | ∃ z ∈ data.elems, x = ‖z‖} kmax ∧ curvatureMax data pos dims = .ok (some m) ∧
      IsGreatest {x | ∃ k < data.len.prod, x = ((curvePairs dims).map fun p =>
        (if p.1 = p.2 then 1 else 2) * (‖(e p.1 p.2).elems.getD k 0‖ / kmax) ^ 2).sum} m := by
  obtain ⟨z0, hz0, hz0'⟩ := hne
  have hlen := hw.2.1
  have hpos : 0 < data.len.prod := by rw [← hlen]; exact List.length_pos_of_mem hz0
  haveI : Nonempty (MArr ℂ) := ⟨data⟩
  choose! d hd using fun i (hi : i < dims) => deriv_exists hw (hax i hi) hpos
  have he : ∀ i < dims, ∀ j < dims, ∃ e, partialDerivArr ℝ (d i) (pos + j) = .ok e ∧ e.WF ∧ e.len = (d i).len ∧
      ((∀ z ∈ (d i).elems, z.im = 0) → ∀ z ∈ e.elems, z.im = 0) := by
    intro i hi j hj
    obtain ⟨-, w, l, -⟩ := hd i hi
    exact deriv_exists w (by rw [l]; exact hax j hj) (by rw [l]; exact hpos)
  choose! e he using he
  have hk := maxNorm_pos ⟨z0, hz0, hz0'⟩
  have hmem : ∀ p ∈ curvePairs dims, p.1 < dims ∧ p.2 < dims := by
    intro p hp
    obtain ⟨i, hi, hp⟩ := List.mem_flatMap.1 hp
    obtain ⟨j, hj, rfl⟩ := List.mem_map.1 hp
    have := List.mem_range.1 hi; have := List.mem_range.1 hj
    exact ⟨by assumption, by show j < dims; omega⟩
  set terms := (curvePairs dims).map fun p => ((if p.2 = p.1 then 1 else 2 : ℝ), (e p.1 p.2).elems) with hterms
  set zero := data.elems.map fun _ => (0 : ℂ) with hzero
  have key := squares_greatest terms
    data.len.prod hpos (by
      intro t ht
      obtain ⟨p, hp, rfl⟩ := List.mem_map.1 ht
      obtain ⟨h1, h2⟩ := hmem p hp
      obtain ⟨-, w, l, -⟩ := he p.1 h1 p.2 h2
      show (e p.1 p.2).elems.length = _
      rw [w.2.1, l, (hd p.1 h1).2.2.1]) (by
      intro t ht
      obtain ⟨p, hp, rfl⟩ := List.mem_map.1 ht
      show (0 : ℝ) ≤ if p.2 = p.1 then 1 else 2
      split_ifs <;> norm_num) (by
      rcases hr with hr | hr
      · left
        intro t ht z hz
        obtain ⟨p, hp, rfl⟩ := List.mem_map.1 ht
        obtain ⟨h1, h2⟩ := hmem p hp
        exact (he p.1 h1 p.2 h2).2.2.2 ((hd p.1 h1).2.2.2 hr) z hz
      · right
        have : dims = 0 ∨ dims = 1 := by omega
        rcases this with rfl | rfl <;> simp [hterms, curvePairs]) zero (by
      rw [hzero, ← hlen, List.map_const'])
  have inner : ∀ i < dims, ∀ n ≤ dims, ∀ acc : List ℂ,
      (List.range n).foldlM (m := Res) (fun acc j => do
        let e ← FinDiff.partialDerivArr ℝ (d i) (pos + j)
        return addSquares acc (if j = i then 1 else 2) e.elems) acc
      = .ok (((List.range n).map fun j => ((if j = i then 1 else 2 : ℝ), (e i j).elems)).foldl
          (fun acc t => addSquares acc t.1 t.2) acc) := by
    intro i hi n hn acc
    induction n with
    | zero => rfl
    | succ n ih =>
      rw [List.range_succ, List.foldlM_append, ih (by omega), List.map_append, List.foldl_append]
      simp [bind, Except.bind, pure, Except.pure, (he i hi n (by omega)).1]
  have outer : ∀ n ≤ dims, (List.range n).foldlM (m := Res) (fun acc i => do
      let d ← FinDiff.partialDerivArr ℝ data (pos + i)
      (List.range (i + 1)).foldlM (fun acc j => do
        let e ← FinDiff.partialDerivArr ℝ d (pos + j)
        return addSquares acc (if j = i then 1 else 2) e.elems) acc) zero
      = .ok (((curvePairs n).map fun p => ((if p.2 = p.1 then 1 else 2 : ℝ), (e p.1 p.2).elems)).foldl
          (fun acc t => addSquares acc t.1 t.2) zero) := by
    intro n hn
    induction n with
    | zero => rfl
    | succ n ih =>
      have hcp : curvePairs (n + 1) = curvePairs n ++ (List.range (n + 1)).map fun j => (n, j) := by
        conv_lhs => unfold curvePairs; rw [List.range_succ]
        rw [List.flatMap_append, List.flatMap_cons, List.flatMap_nil, List.append_nil]
        rfl
      rw [List.range_succ, List.foldlM_append, ih (by omega), hcp, List.map_append, List.foldl_append, List.map_map]
      have := inner n (by omega) (n + 1) (by omega)
      have okb : ∀ {α β : Type} (a : α) (f : α → Res β), ((Except.ok a : Res α) >>= f) = f a := fun _ _ => rfl
      rw [okb, List.foldlM_cons, (hd n (by omega)).1, okb, this, okb]
      rfl
  have hfin : curvatureMax data pos dims = .ok (some (maxNorm (terms.foldl (fun acc t => addSquares acc t.1 t.2) zero)
      / (maxNorm data.elems * maxNorm data.elems))) := by
    unfold curvatureMax
    simp only [← hzero]
    rw [outer dims le_rfl]
    simp only [bind, Except.bind, pure, Except.pure, if_neg hk.ne', ← hterms]
  refine ⟨d, e, maxNorm data.elems, _, fun i hi => (hd i hi).1, fun i hi j hj => (he i hi j hj).1,
    maxNorm_isGreatest (List.ne_nil_of_mem hz0), hfin, ?_⟩
  have conv : ∀ k, ((curvePairs dims).map fun p =>
        (if p.1 = p.2 then 1 else 2 : ℝ) * (‖(e p.1 p.2).elems.getD k 0‖ / maxNorm data.elems) ^ 2).sum
      = (terms.map fun t => t.1 * ‖t.2.getD k 0‖ ^ 2).sum / (maxNorm data.elems * maxNorm data.elems) := by
    intro k
    rw [hterms, List.map_map, div_eq_mul_inv, ← List.sum_map_mul_right]
    congr 1
    apply List.map_congr_left
    intro p _
    simp only [Function.comp, eq_comm (a := p.1)]
    field_simp
  obtain ⟨⟨k, hk1, hk2⟩, g2⟩ := key
  refine ⟨⟨k, hk1, by rw [conv k, ← hk2]⟩, ?_⟩
  rintro x ⟨k, hk1, rfl⟩
  rw [conv k]
  apply div_le_div_of_nonneg_right _ (by positivity)
  exact g2 ⟨k, hk1, rfl⟩

/-- Consequence: on such data the slope vanishes exactly if every derivative vanishes. -/
theorem c124_flat_partial {data : MArr ℂ} (hw : data.WF) {pos dims : Nat}
    (hax : ∀ i < dims, 2 < data.len.getD (pos + i) 0) (hr : (∀ z ∈ data.elems, z.im = 0) ∨ dims ≤ 1)
    (hne : ∃ z ∈ data.elems, z ≠ 0) :
    derivMax data pos dims = .ok (some 0) ↔
      ∀ i < dims, ∃ d, partialDerivArr ℝ data (pos + i) = .ok d ∧ ∀ z ∈ d.elems, z = 0 := by
  obtain ⟨d, kmax, m, h1, h2, h3, h4⟩ := c124_slope_partial hw hax hr hne
  obtain ⟨z0, hz0, hz0'⟩ := hne
  have hlen := hw.2.1
  have hpos : 0 < data.len.prod := by rw [← hlen]; exact List.length_pos_of_mem hz0
  have hk : 0 < kmax := (norm_pos_iff.2 hz0').trans_le (h2.2 ⟨z0, hz0, rfl⟩)
  have hdl : ∀ i < dims, (d i).elems.length = data.len.prod := by
    intro i hi
    obtain ⟨d', e1, w, l, -⟩ := deriv_exists hw (hax i hi) hpos
    rw [h1 i hi] at e1
    obtain rfl := Except.ok.inj e1
    rw [w.2.1, l]
  have nn : ∀ k, ∀ x ∈ (List.range dims).map fun i => (‖(d i).elems.getD k 0‖ / kmax) ^ 2, 0 ≤ x := by
    intro k x hx
    obtain ⟨i, -, rfl⟩ := List.mem_map.1 hx
    positivity
  rw [h3]
  constructor
  · intro h i hi
    have hm : m = 0 := Option.some.inj (Except.ok.inj h)
    refine ⟨d i, h1 i hi, ?_⟩
    intro z hz
    obtain ⟨k, hk', rfl⟩ := List.getElem_of_mem hz
    have := h4.2 ⟨k, by rw [← hdl i hi]; exact hk', rfl⟩
    rw [hm] at this
    have t := List.single_le_sum (nn k) _ (List.mem_map.2 ⟨i, List.mem_range.2 hi, rfl⟩)
    have : (‖(d i).elems.getD k 0‖ / kmax) ^ 2 ≤ 0 := t.trans this
    have h0 : ‖(d i).elems.getD k 0‖ / kmax = 0 := by nlinarith [sq_nonneg (‖(d i).elems.getD k 0‖ / kmax), pow_eq_zero_iff (two_ne_zero) |>.1 (le_antisymm this (sq_nonneg _))]
    rw [div_eq_zero_iff] at h0
    rcases h0 with h0 | h0
    · rw [List.getD_eq_getElem _ _ hk'] at h0; exact norm_eq_zero.1 h0
    · exact absurd h0 hk.ne'
  · intro h
    obtain ⟨k, -, hk2⟩ := h4.1
    congr 2
    rw [hk2]
    apply List.sum_eq_zero
    intro x hx
    obtain ⟨i, hi, rfl⟩ := List.mem_map.1 hx
    obtain ⟨d', e, hz⟩ := h i (List.mem_range.1 hi)
    rw [h1 i (List.mem_range.1 hi)] at e
    obtain rfl := Except.ok.inj e
    by_cases hl : k < (d i).elems.length
    · rw [List.getD_eq_getElem _ _ hl, hz _ (List.getElem_mem _)]; simp
    · rw [List.getD_eq_default _ _ (by omega)]; simp

/-- **C124** is false for data that vanish: the measures are not a number, and no minimisation can use them. -/
theorem c124_zero_refuted {data : MArr ℂ} (hw : data.WF) {pos dims : Nat}
    (hax : ∀ i < dims, 2 < data.len.getD (pos + i) 0) (hpos : 0 < data.len.prod) (h0 : ∀ z ∈ data.elems, z = 0) :
    derivMax data pos dims = .ok none := by
  haveI : Nonempty (MArr ℂ) := ⟨data⟩
  choose! d hd using fun i (hi : i < dims) => deriv_exists hw (hax i hi) hpos
  have hne : data.elems ≠ [] := by
    intro h
    have := hw.2.1
    rw [h] at this; simp at this; omega
  have hk : maxNorm data.elems = 0 := by
    obtain ⟨z, hz, e⟩ := (maxNorm_isGreatest hne).1
    rw [e, h0 z hz, norm_zero]
  unfold derivMax
  rw [mapM_range_ok _ d dims (fun i hi => (hd i hi).1)]
  simp only [bind, Except.bind, pure, Except.pure, if_pos hk]

end Verif.Buffer
