import Verif.Buffer.Model
import Verif.Collapse.Props
import Verif.FreqGrid.Props
import Mathlib.Order.Bounds.Basic

/-! C123: share of the tails in the data, and shrinking of the frequency box. -/
namespace Verif.Buffer
open Verif Verif.Index Verif.Collapse Verif.FreqGrid Verif.Interp

theorem foldl_max_greatest (l : List ℚ) (h0 : ∀ x ∈ l, 0 ≤ x) (hne : l ≠ []) :
    IsGreatest {x | x ∈ l} (l.foldl max 0) := by
  have key : ∀ (l : List ℚ) (a : ℚ), a ≤ l.foldl max a ∧ (∀ x ∈ l, x ≤ l.foldl max a) ∧
      (l.foldl max a = a ∨ l.foldl max a ∈ l) := by
    intro l
    induction l with
    | nil => simp
    | cons x l ih =>
      intro a
      obtain ⟨h1, h2, h3⟩ := ih (max a x)
      rw [List.foldl_cons]
      refine ⟨(le_max_left _ _).trans h1, ?_, ?_⟩
      · intro y hy
        rcases List.mem_cons.1 hy with rfl | hy
        · exact (le_max_right _ _).trans h1
        · exact h2 y hy
      · rcases h3 with h | h
        · rcases le_total a x with hm | hm
          · right; rw [h, max_eq_right hm]; simp
          · left; rw [h, max_eq_left hm]
        · right; simp [h]
  obtain ⟨h1, h2, h3⟩ := key l 0
  refine ⟨?_, fun x hx => h2 x hx⟩
  rcases h3 with h | h
  · obtain ⟨x, l', rfl⟩ := List.exists_cons_of_ne_nil hne
    have h4 := h2 x (by simp)
    rw [h] at h4
    have h5 : x = 0 := le_antisymm h4 (h0 x (by simp))
    show List.foldl max 0 (x :: l') ∈ x :: l'
    rw [h, h5]; simp
  · exact h

/-- **C123** (share of the tails). The reported number is the largest modulus on the chosen outer slice divided
by the largest modulus of all data; it lies between zero and one; it is not a number exactly if all data
vanish.  It does not depend on the schedule of the threads. -/
theorem c123_share {α : Type} [Zero α] (absf : α → ℚ) (emb : ℚ → α) (hemb : ∀ q, 0 ≤ q → absf (emb q) = q)
    (hnn : ∀ x, 0 ≤ absf x) (data : List α) (dims : List Nat) (axis index : Nat) (order : List Nat)
    (hi : axis < dims.length) (hpos : 0 < numElems dims) (hdata : data.length = numElems dims)
    (hord : order.Perm (List.range dims[axis])) (hin : index < dims[axis]) :
    ∃ T q, IsGreatest {x | ∃ y ∈ data, x = absf y} T ∧
      IsGreatest {x | ∃ m, InRange m dims ∧ m.getD axis 0 = dims[axis] - 1 - index ∧ x = absf (elemAt data dims m)} q ∧
      analyzeTails absf emb data dims axis index order = .ok (if T = 0 then none else some (q / T)) ∧
      (T = 0 ↔ ∀ y ∈ data, absf y = 0) ∧ (T ≠ 0 → 0 ≤ q / T ∧ q / T ≤ 1) := by
  obtain ⟨out, h1, h2, h3⟩ := c44_maxabs absf emb hemb hnn data dims axis order hi hpos hdata hord
  obtain ⟨q, hq, hq1, m, hm1, hm2, hm3⟩ := h3 (dims[axis] - 1 - index) (by omega)
  have hne : data.map absf ≠ [] := by
    intro h
    have := congrArg List.length h
    simp [hdata] at this; omega
  have g := foldl_max_greatest (data.map absf) (by
    intro x hx
    obtain ⟨y, -, rfl⟩ := List.mem_map.1 hx
    exact hnn y) hne
  set T := (data.map absf).foldl max 0 with hT
  have gT : IsGreatest {x | ∃ y ∈ data, x = absf y} T := by
    constructor
    · obtain ⟨y, hy, e⟩ := List.mem_map.1 g.1
      exact ⟨y, hy, e.symm⟩
    · rintro x ⟨y, hy, rfl⟩
      exact g.2 (List.mem_map.2 ⟨y, hy, rfl⟩)
  have hTnn : 0 ≤ T := by obtain ⟨y, -, e⟩ := gT.1; rw [e]; exact hnn y
  have hmem : elemAt data dims m ∈ data := by
    unfold elemAt
    have : rowMajor m dims < data.length := by rw [hdata]; exact rowMajor_lt hm1
    rw [List.getD_eq_getElem?_getD, List.getElem?_eq_getElem this]
    exact List.getElem_mem _
  refine ⟨T, q, gT, ⟨⟨m, hm1, hm2, hm3⟩, ?_⟩, ?_, ⟨?_, ?_⟩, ?_⟩
  · rintro x ⟨m', a, b, rfl⟩
    exact hq1 m' a b
  · unfold analyzeTails
    rw [← hT, h1]
    simp only [List.getElem?_eq_getElem hi, toRes, bind, Except.bind, pure, Except.pure, if_pos (show index + 1 ≤ dims[axis] by omega), hq]
  · intro h y hy
    exact le_antisymm (h ▸ gT.2 ⟨y, hy, rfl⟩) (hnn y)
  · intro h
    obtain ⟨y, hy, e⟩ := gT.1
    rw [e, h y hy]
  · intro h
    have hp : 0 < T := lt_of_le_of_ne hTnn (Ne.symm h)
    constructor
    · exact div_nonneg (by rw [hm3]; exact hnn _) hTnn
    · rw [div_le_one hp, hm3]
      exact gT.2 ⟨_, hmem, rfl⟩

/-- An index beyond the number of grid points reads outside of the array. -/
theorem c123_index {α : Type} [Zero α] (absf : α → ℚ) (emb : ℚ → α) (hemb : ∀ q, 0 ≤ q → absf (emb q) = q)
    (hnn : ∀ x, 0 ≤ absf x) (data : List α) (dims : List Nat) (axis index : Nat) (order : List Nat)
    (hi : axis < dims.length) (hpos : 0 < numElems dims) (hdata : data.length = numElems dims)
    (hord : order.Perm (List.range dims[axis])) (hin : dims[axis] ≤ index) :
    analyzeTails absf emb data dims axis index order = .error .undefined := by
  obtain ⟨out, h1, h2, h3⟩ := c44_maxabs absf emb hemb hnn data dims axis order hi hpos hdata hord
  unfold analyzeTails
  rw [h1]
  simp only [List.getElem?_eq_getElem hi, toRes, bind, Except.bind, if_neg (show ¬ index + 1 ≤ dims[axis] by omega)]
  rfl

/-- **C123** is false for the shrinking of the box: no grid is ever changed. -/
theorem c123_shrink_refuted :
    ¬ ∀ (g : Grid) (thr : ℝ) (along : List ℝ), g.Valid → along.length = g.n → (∃ x ∈ along, thr ≤ x) →
      along.getLast? = some 0 → 0 < thr → (shrink g thr along).upper < g.upper := by
  intro h
  have := h (keldyshGrid 1 0 1 3) 1 [1, 2, 0] (keldyshGrid_valid (by norm_num) (by norm_num) 0 (by norm_num)) rfl
    ⟨1, by simp, le_rfl⟩ rfl (by norm_num)
  exact lt_irrefl _ this

/-- Counting from the upper end. -/
theorem countBelow_spec (thr : ℝ) (l : List ℝ) :
    (∀ k, countBelow thr l = .ok k ↔ (∃ x, l[k]? = some x ∧ thr ≤ x) ∧ ∀ j < k, ∀ x, l[j]? = some x → x < thr) ∧
    (countBelow thr l = .error .undefined ↔ ∀ x ∈ l, x < thr) := by
  induction l with
  | nil => simp [countBelow]
  | cons y l ih =>
    obtain ⟨i1, i2⟩ := ih
    by_cases h : y ≥ thr
    · have e : countBelow thr (y :: l) = .ok 0 := by simp only [countBelow, if_pos h]
      rw [e]
      refine ⟨fun k => ?_, ?_⟩
      · constructor
        · intro hk
          obtain rfl := Except.ok.inj hk
          exact ⟨⟨y, rfl, h⟩, fun j hj => absurd hj (by omega)⟩
        · rintro ⟨-, h2⟩
          rcases k with _ | k
          · rfl
          · exact absurd (h2 0 (by omega) y rfl) (not_lt.2 h)
      · simp only [reduceCtorEq, false_iff, not_forall]
        exact ⟨y, by simp, not_lt.2 h⟩
    · have e : countBelow thr (y :: l) = (countBelow thr l).map (· + 1) := by
        simp only [countBelow, if_neg h]
        rcases countBelow thr l <;> rfl
      rw [e]
      refine ⟨fun k => ?_, ?_⟩
      · rcases k with _ | k
        · constructor
          · intro hk; rcases h' : countBelow thr l with _ | c <;> rw [h'] at hk <;> simp [Except.map] at hk
          · rintro ⟨⟨x, hx, hx'⟩, -⟩
            simp at hx; subst hx; exact absurd hx' h
        · have : (countBelow thr l).map (· + 1) = .ok (k + 1) ↔ countBelow thr l = .ok k := by
            rcases countBelow thr l with _ | c <;> simp [Except.map]
          rw [this, i1 k]
          constructor
          · rintro ⟨⟨x, hx, hx'⟩, h2⟩
            refine ⟨⟨x, by simpa using hx, hx'⟩, ?_⟩
            intro j hj x hx
            rcases j with _ | j
            · simp at hx; subst hx; exact not_le.1 h
            · exact h2 j (by omega) x (by simpa using hx)
          · rintro ⟨⟨x, hx, hx'⟩, h2⟩
            refine ⟨⟨x, by simpa using hx, hx'⟩, ?_⟩
            intro j hj x hx
            exact h2 (j + 1) (by omega) x (by simpa using hx)
      · have : (countBelow thr l).map (· + 1) = .error .undefined ↔ countBelow thr l = .error .undefined := by
          rcases countBelow thr l with _ | c <;> simp [Except.map]
        rw [this, i2]
        simp only [List.mem_cons, forall_eq_or_imp]
        exact ⟨fun h' => ⟨not_le.1 h, h'⟩, fun h' => h'.2⟩

theorem real_max_ge (l : List ℝ) (a : ℝ) : a ≤ l.foldl (fun m x => max m |x|) a ∧
    ∀ x ∈ l, |x| ≤ l.foldl (fun m x => max m |x|) a := by
  induction l generalizing a with
  | nil => simp
  | cons y l ih =>
    obtain ⟨h1, h2⟩ := ih (max a |y|)
    refine ⟨(le_max_left _ _).trans h1, ?_⟩
    intro x hx
    rcases List.mem_cons.1 hx with rfl | hx
    · exact (le_max_right _ _).trans h1
    · exact h2 x hx

/-- **C123** for the function that would shrink the box (it is not called): on a symmetric grid, with some value
not below the threshold, the `k` outermost points on the upper side are those below the threshold; if there are
none, nothing is changed; otherwise, if they do not reach the centre, the new upper limit lies between the
outermost point that is kept and the innermost that is dropped. -/
theorem c123_limit_partial {g : Grid} (hg : g.Valid) (hp : g.purelyPositive = false)
    (hbox : g.lower = -g.upper) (hodd : ∀ x, g.toT (-x) = -g.toT x) {thr : ℝ} {along : List ℝ}
    (hlen : along.length = g.n) {k : Nat} (hk : k < g.n) (hkx : thr ≤ along.getD (g.n - 1 - k) 0)
    (hbelow : ∀ j < k, along.getD (g.n - 1 - j) 0 < thr) (hthr : 1 / 10 ^ 20 ≤ thr) :
    (k = 0 → shrinkImpl g thr along = .ok none) ∧
    (0 < k → 2 * k ≤ g.n - 1 → ∃ u, shrinkImpl g thr along = .ok (some u) ∧
      g.freq (g.n - 1 - k) < u ∧ u < g.freq (g.n - k)) := by
  have hrev : ∀ j < g.n, along.reverse[j]? = some (along.getD (g.n - 1 - j) 0) := by
    intro j hj
    have h1 : j < along.reverse.length := by simp [hlen, hj]
    rw [List.getElem?_eq_getElem h1, List.getElem_reverse]
    have h2 : g.n - 1 - j < along.length := by omega
    rw [List.getD_eq_getElem?_getD, List.getElem?_eq_getElem h2]
    simp [hlen]
  have hc : countBelow thr along.reverse = .ok k := by
    rw [(countBelow_spec thr _).1 k]
    refine ⟨⟨_, hrev k hk, hkx⟩, ?_⟩
    intro j hj x hx
    rw [hrev j (by omega)] at hx
    rw [← Option.some.inj hx]; exact hbelow j hj
  have hmax : ¬ along.foldl (fun m x => max m |x|) 0 < 1 / 10 ^ 20 := by
    apply not_lt.2
    have hm : along.getD (g.n - 1 - k) 0 ∈ along := by
      have h2 : g.n - 1 - k < along.length := by omega
      rw [List.getD_eq_getElem?_getD, List.getElem?_eq_getElem h2]
      exact List.getElem_mem _
    exact hthr.trans (hkx.trans ((le_abs_self _).trans ((real_max_ge along 0).2 _ hm)))
  constructor
  · rintro rfl
    unfold shrinkImpl
    rw [if_neg (by simp [hlen]), if_neg hmax, hc]
    simp only [bind, Except.bind, lt_irrefl, if_false]; rfl
  · intro h0 hhalf
    have e1 : getAux g ((k : Int) - 1) = .ok (g.aux (k - 1)) := by
      unfold getAux
      rw [if_pos (by omega)]
      congr 2; omega
    have e2 : getAux g k = .ok (g.aux k) := by
      unfold getAux
      rw [if_pos (by omega)]
      rfl
    set xb := along.getD (g.n - 1 - (k - 1)) 0 with hxb
    set xa := along.getD (g.n - 1 - k) 0 with hxa
    have hbt : xb < thr := hbelow (k - 1) (by omega)
    set h := (thr - xb) * (g.aux k - g.aux (k - 1)) / (xa - xb) with hh
    have hres : shrinkImpl g thr along = .ok (some |g.ofT (g.aux (k - 1) + h * (9 / 10))|) := by
      unfold shrinkImpl
      rw [if_neg (by simp [hlen]), if_neg hmax, hc]
      simp only [bind, Except.bind, if_pos h0, e1, e2, hrev (k - 1) (by omega), hrev k hk, toRes, pure, Except.pure]
      rfl
    have hstep := ((c22_span_increasing hg).2.2 (k - 1) k (by omega) hk).2
    have hd : 0 < xa - xb := by linarith
    have hh1 : 0 < h := by
      rw [hh]; exact div_pos (mul_pos (by linarith) (by linarith)) hd
    have hh2 : h ≤ g.aux k - g.aux (k - 1) := by
      rw [hh, div_le_iff₀ hd]
      have : thr - xb ≤ xa - xb := by linarith
      nlinarith
    set t := g.aux (k - 1) + h * (9 / 10) with ht
    have ht1 : g.aux (k - 1) < t := by rw [ht]; linarith
    have ht2 : t < g.aux k := by rw [ht]; nlinarith
    -- symmetry
    have hsym : ∀ i < g.n, g.freq (g.n - 1 - i) = - g.freq i := by
      intro i hi
      have := c22_symmetric hg hp 0 (by rw [hbox]; ring) (by intro x; simpa using hodd x) hi
      simpa using this
    have hrange : -1 < t ∧ t < 1 := by
      obtain ⟨a, -⟩ := hg.aux_bounds (i := k - 1) (by omega)
      obtain ⟨-, b⟩ := hg.aux_bounds hk
      exact ⟨(hg.maps.range _).1.trans_le a |>.trans ht1, ht2.trans (b.trans_lt (hg.maps.range _).2)⟩
    have hto : g.toT (g.ofT t) = t := hg.maps.forth t hrange.1 hrange.2
    have hmono := hg.maps.toT_strictMono
    have hlo : g.freq (k - 1) < g.ofT t := by
      rw [← hmono.lt_iff_lt, hto, hg.toT_freq (by omega)]; exact ht1
    have hhi : g.ofT t < g.freq k := by
      rw [← hmono.lt_iff_lt, hto, hg.toT_freq hk]; exact ht2
    have hneg : g.freq k ≤ 0 := by
      have h1 := hsym k hk
      have h2 : g.freq k ≤ g.freq (g.n - 1 - k) := by
        rcases Nat.lt_or_ge k (g.n - 1 - k) with hlt | hge
        · exact ((c22_span_increasing hg).2.2 k _ hlt (by omega)).1.le
        · rw [show g.n - 1 - k = k by omega]
      linarith
    refine ⟨_, hres, ?_, ?_⟩
    · rw [abs_of_neg (by linarith), hsym k hk]; linarith
    · rw [abs_of_neg (by linarith), show g.n - k = g.n - 1 - (k - 1) by omega, hsym (k - 1) (by omega)]; linarith

/-- If every value lies below the threshold (relative values are at most one, so any threshold above one) the
loop leaves the array. -/
theorem c123_limit_undefined {g : Grid} {thr : ℝ} {along : List ℝ} (hlen : along.length = g.n)
    (hbig : ∃ x ∈ along, 1 / 10 ^ 20 ≤ |x|) (h : ∀ x ∈ along, x < thr) :
    shrinkImpl g thr along = .error .undefined := by
  have hmax : ¬ along.foldl (fun m x => max m |x|) 0 < 1 / 10 ^ 20 := by
    apply not_lt.2
    obtain ⟨x, hx, hx'⟩ := hbig
    exact hx'.trans ((real_max_ge along 0).2 x hx)
  have hc : countBelow thr along.reverse = .error .undefined := by
    rw [(countBelow_spec thr _).2]
    intro x hx
    exact h x (by simpa using hx)
  unfold shrinkImpl
  rw [if_neg (by simp [hlen]), if_neg hmax, hc]
  rfl

/-- The hypotheses of the share theorem are met: four numbers in a `2 × 2` array, second axis, outermost point:
the share is `3/4`. -/
example : analyzeTails (fun x : ℚ => |x|) id [1, -3, 4, 2] [2, 2] 1 0 [1, 0] = .ok (some (3/4)) := by
  decide +kernel

/-- Data concentrated at the lower end of the box are recognised only as small at the upper end. -/
example : analyzeTails (fun x : ℚ => |x|) id [1, 0, 0, 0] [4] 0 0 [0, 1, 2, 3] = .ok (some 0) := by
  decide +kernel

/-- The hypotheses of the limit theorem: five points, the outermost below the threshold. -/
example : ∃ u, shrinkImpl (keldyshGrid 1 0 1 5) (1/10) [0, 1, 1, 1, 0] = .ok (some u) := by
  obtain ⟨u, h, -⟩ := (c123_limit_partial (g := keldyshGrid 1 0 1 5) (thr := 1/10) (along := [0, 1, 1, 1, 0]) (k := 1)
    (keldyshGrid_valid (by norm_num) (by norm_num) 0 (by norm_num)) rfl
    (by simp [keldyshGrid]) (by
      intro x
      have := (GridMap.c21_odd 1 0 x).2.1
      simpa [keldyshGrid] using this) rfl (by show 1 < 5; norm_num)
    (by show (1/10 : ℝ) ≤ 1; norm_num) (by
      intro j hj
      obtain rfl : j = 0 := by omega
      show (0 : ℝ) < 1/10; norm_num) (by norm_num)).2 (by norm_num) (by show 2 * 1 ≤ 5 - 1; norm_num)
  exact ⟨u, h⟩

end Verif.Buffer
