import Verif.Buffer.Props

/-! C121: more on changing the grid. -/
namespace Verif.Buffer
open Verif Verif.Index Verif.MultiArray Verif.Interp Verif.FreqGrid

variable {V : Type} [AddCommGroup V] [Module ℝ V]

/-- The value of a nest of real numbers lies between bounds of the corner values. -/
theorem nest_bounds {ls : List (Nat × ℝ)} (hd : ∀ l ∈ ls, 0 ≤ l.2 ∧ l.2 ≤ 1) {F : List Nat → ℝ} {lo hi : ℝ}
    (hF : ∀ o, InRange o (ls.map fun l => l.1 + 2) → lo ≤ F o ∧ F o ≤ hi) :
    lo ≤ nest ls F ∧ nest ls F ≤ hi := by
  induction ls generalizing F with
  | nil => exact hF [] List.Forall₂.nil
  | cons l ls ih =>
    obtain ⟨d0, d1⟩ := hd l (by simp)
    have a := ih (fun m hm => hd m (by simp [hm])) (F := fun o => F (l.1 :: o))
      (fun o ho => hF _ (List.Forall₂.cons (by show l.1 < l.1 + 2; omega) ho))
    have b := ih (fun m hm => hd m (by simp [hm])) (F := fun o => F ((l.1 + 1) :: o))
      (fun o ho => hF _ (List.Forall₂.cons (by show l.1 + 1 < l.1 + 2; omega) ho))
    simp only [nest, smul_eq_mul]
    constructor <;> nlinarith [a.1, a.2, b.1, b.2]

/-- **C121** (bounds). A change of the grid never leaves the range of the stored values and zero; in particular
it never increases the largest modulus. -/
theorem c121_bounds {meth : Method} {conv unconv : List ℝ → List ℝ} {old new : List Axis} {tol : ℝ}
    {data : MArr ℝ} {pre post : List Nat} {nK : Nat} {s : List Nat → ℝ}
    (h : Stored meth conv old data pre post nK s) (hn : new.map (·.grid.n) = old.map (·.grid.n))
    (hc : Covered meth conv unconv old new tol) {sched : List Nat} (hs : Complete data.len.prod sched)
    {lo hi : ℝ} (hlo : lo ≤ 0) (hhi : 0 ≤ hi) (hb : ∀ idx, InRange idx data.len → lo ≤ s idx ∧ s idx ≤ hi) :
    ∃ out t, regrid meth conv unconv old new tol data pre.length sched = .ok out ∧
      Represents out data.len t ∧ ∀ idx, InRange idx data.len → lo ≤ t idx ∧ t idx ≤ hi := by
  obtain ⟨out, t, e, hr, p⟩ := c121_values h hn hc hs
  refine ⟨out, t, e, hr, fun idx hi' => ?_⟩
  rw [h.shape] at hi'
  obtain ⟨ipre, js, iK, ipost, rfl, h1, h2, h3, h4⟩ := split_index hi'
  obtain ⟨q1, q2⟩ := p ipre js iK ipost h1 h2 h3 h4
  by_cases hbx : allInBox tol old (conv (unconv (pts new js)))
  · obtain ⟨loc, c, e1⟩ := q2 hbx
    have hl := (hc js (by rw [hn]; exact h2) hbx).length_eq
    rw [e1, multilin_eq_nest loc (fun k => s (ipre ++ k ++ iK :: ipost))]
    refine nest_bounds ?_ ?_
    · intro l hl'
      obtain ⟨i, hi, rfl⟩ := List.getElem_of_mem hl'
      have := c.2 i (c.1 ▸ hi) (hl ▸ (c.1 ▸ hi)) hi
      exact ⟨this.nonneg, this.le_one⟩
    · intro o ho
      refine hb _ ?_
      rw [h.shape]
      refine join_index h1 ?_ h3 h4
      rw [InRange, List.forall₂_iff_get] at ho ⊢
      have hol : o.length = loc.length := by simpa using ho.1
      refine ⟨by simp [hol, c.1], fun i i1 i2 => ?_⟩
      have i3 : i < loc.length := hol ▸ i1
      have := ho.2 i i1 (by simpa using i3)
      have lt := (c.2 i (c.1 ▸ i3) (hl ▸ (c.1 ▸ i3)) i3).lt
      simp only [List.get_eq_getElem, List.getElem_map] at this ⊢
      omega
  · rw [q1 hbx]; exact ⟨hlo, hhi⟩

theorem nest_congr {meth : Method} {bs : List Axis} {ws : List ℝ} {ls : List (Nat × ℝ)} {F G : List Nat → V}
    (c : Cells meth bs ws ls) (hw : ws.length = bs.length)
    (hFG : ∀ o, InRange o (bs.map (·.grid.n)) → F o = G o) : nest ls F = nest ls G := by
  induction ls generalizing bs ws F G with
  | nil =>
    have : bs = [] := List.length_eq_zero_iff.1 c.1.symm
    subst this
    exact hFG [] List.Forall₂.nil
  | cons l ls ih =>
    match bs, ws, c, hw with
    | [], _, c, _ => have := c.1; simp at this
    | _ :: _, [], _, hw => simp at hw
    | b :: bs, w :: ws, c, hw =>
      obtain ⟨x, y⟩ := c.tail
      simp only [nest]
      have hlt := x.lt
      rw [ih (F := fun o => F (l.1 :: o)) (G := fun o => G (l.1 :: o)) y (by simpa using hw)
          (fun o ho => hFG _ (List.Forall₂.cons (by show l.1 < b.grid.n; omega) ho)),
        ih (F := fun o => F ((l.1 + 1) :: o)) (G := fun o => G ((l.1 + 1) :: o)) y (by simpa using hw)
          (fun o ho => hFG _ (List.Forall₂.cons hlt ho))]

theorem nest_head {meth : Method} {a : Axis} (ha : a.grid.Valid) {j : Nat} (hj : j < a.grid.n) {l : Nat × ℝ}
    {ls : List (Nat × ℝ)} (q : Cell meth a (a.grid.freq j) l.1 l.2) (F : List Nat → V) :
    nest (l :: ls) F = nest ls (fun o => F (j :: o)) := by
  have e0 : nest [l] (fun i => nest ls (fun o => F (i ++ o)))
      = (fun i => nest ls (fun o => F (i ++ o))) [j] :=
    nest_node (meth := meth) (axes := [a]) (by simpa using ha) (List.Forall₂.cons hj List.Forall₂.nil)
      ⟨rfl, fun i i1 i2 i3 => by
        have : i = 0 := by simpa using i1
        subst this; exact q⟩ _
  exact e0

/-- **C121** (direction by direction, linear method). Re-gridding first the bosonic frequency and then the
others gives the same data as re-gridding all at once: the sequence of steps taken by `optimize_grid` does not
accumulate interpolation errors. -/
theorem c121_stepwise_partial {a a' : Axis} {as as' : List Axis} {tol : ℝ} {data : MArr V} {pre post : List Nat}
    {nK : Nat} {s : List Nat → V} (h : Stored .linear id (a :: as) data pre post nK s)
    (ha : a'.grid.Valid) (hna : a'.grid.n = a.grid.n) (hn : as'.map (·.grid.n) = as.map (·.grid.n))
    (hoa : OwnBox id id [a'] tol) (hoas : OwnBox id id as tol)
    (hc1 : Covered .linear id id [a] [a'] tol) (hc2 : Covered .linear id id as as' tol)
    {s1 s2 s3 : List Nat} (hs1 : Complete data.len.prod s1) (hs2 : Complete data.len.prod s2)
    (hs3 : Complete data.len.prod s3) :
    ∃ mid, regrid .linear id id (a :: as) (a' :: as) tol data pre.length s1 = .ok mid ∧
      regrid .linear id id (a' :: as) (a' :: as') tol mid pre.length s2
        = regrid .linear id id (a :: as) (a' :: as') tol data pre.length s3 := by
  have hva := h.valid a (by simp)
  have hvs : ∀ b ∈ as, b.grid.Valid := fun b hb => h.valid b (by simp [hb])
  -- coverage of the three steps
  have c1 : Covered .linear id id (a :: as) (a' :: as) tol := by
    rintro (_ | ⟨j, js⟩) hj hb
    · simp [InRange] at hj
    · simp only [List.map_cons, InRange, List.forall₂_cons] at hj
      simp only [id, pts, List.zipWith_cons_cons, allInBox, List.forall₂_cons] at hb ⊢
      have t1 := hc1 [j] (List.Forall₂.cons hj.1 List.Forall₂.nil) (List.Forall₂.cons hb.1 List.Forall₂.nil)
      simp only [id, pts, List.zipWith_cons_cons, List.zipWith_nil_right, List.forall₂_cons] at t1
      exact ⟨t1.1, pts_inside_linear hvs hj.2⟩
  have c2 : Covered .linear id id (a' :: as) (a' :: as') tol := by
    rintro (_ | ⟨j, js⟩) hj hb
    · simp [InRange] at hj
    · simp only [List.map_cons, InRange, List.forall₂_cons] at hj
      simp only [id, pts, List.zipWith_cons_cons, allInBox, List.forall₂_cons] at hb ⊢
      have t1 := pts_inside_linear (axes := [a']) (by simpa using ha) (js := [j])
        (List.Forall₂.cons hj.1 List.Forall₂.nil)
      simp only [pts, List.zipWith_cons_cons, List.zipWith_nil_right, List.forall₂_cons] at t1
      exact ⟨t1.1, hc2 js hj.2 hb.2⟩
  have c3 : Covered .linear id id (a :: as) (a' :: as') tol := by
    rintro (_ | ⟨j, js⟩) hj hb
    · simp [InRange] at hj
    · simp only [List.map_cons, InRange, List.forall₂_cons] at hj
      simp only [id, pts, List.zipWith_cons_cons, allInBox, List.forall₂_cons] at hb ⊢
      have t1 := hc1 [j] (List.Forall₂.cons hj.1 List.Forall₂.nil) (List.Forall₂.cons hb.1 List.Forall₂.nil)
      simp only [id, pts, List.zipWith_cons_cons, List.zipWith_nil_right, List.forall₂_cons] at t1
      exact ⟨t1.1, hc2 js hj.2 hb.2⟩
  obtain ⟨mid, t, e, hr, p⟩ := c121_values (new := a' :: as) h (by simp [hna]) c1 hs1
  have hlen : mid.len = data.len := hr.2.1
  have hm : Stored .linear id (a' :: as) mid pre post nK t :=
    { one := h.one
      three := h.three
      valid := by
        intro b hb
        rcases List.mem_cons.1 hb with rfl | hb
        · exact ha
        · exact hvs b hb
      small := by
        intro b hb
        rcases List.mem_cons.1 hb with rfl | hb
        · rw [hna]; exact h.small a (by simp)
        · exact h.small b (by simp [hb])
      noConv := fun _ _ _ => rfl
      shape := by rw [hlen, h.shape]; simp [hna]
      internal := h.internal
      values := by rw [hlen]; exact hr }
  obtain ⟨out, u, e2, hr2, p2⟩ := c121_values (new := a' :: as') hm (by simp [hn]) c2 (hlen ▸ hs2)
  obtain ⟨out', u', e3, hr3, p3⟩ := c121_values (new := a' :: as') h (by simp [hna, hn]) c3 hs3
  refine ⟨mid, e, ?_⟩
  rw [e2, e3]
  congr 1
  rw [hlen] at hr2
  refine represents_unique (List.length_pos_iff.2 h.values.1.1) hr2 ⟨hr3.1, hr3.2.1, fun idx hi => ?_⟩
  rw [hr3.2.2 idx hi]
  congr 1
  rw [h.shape] at hi
  obtain ⟨ipre, js, iK, ipost, rfl, h1, h2, h3, h4⟩ := split_index hi
  match js, h2 with
  | [], h2 => simp [InRange] at h2
  | j :: js, h2 =>
  have h2' : InRange (j :: js) ((a' :: as).map (·.grid.n)) := by
    simp only [List.map_cons, hna]; exact h2
  have hj : j < a.grid.n := by
    simp only [List.map_cons, InRange, List.forall₂_cons] at h2; exact h2.1
  have hjs : InRange js (as.map (·.grid.n)) := by
    simp only [List.map_cons, InRange, List.forall₂_cons] at h2; exact h2.2
  obtain ⟨m1, m2⟩ := p2 ipre (j :: js) iK ipost h1 h2' h3 h4
  obtain ⟨d1, d2⟩ := p3 ipre (j :: js) iK ipost h1 h2 h3 h4
  -- the intermediate data
  have hmid : ∀ ks, InRange ks (as.map (·.grid.n)) →
      (¬ allInBox tol [a] [a'.grid.freq j] → t (ipre ++ (j :: ks) ++ iK :: ipost) = 0) ∧
      (allInBox tol [a] [a'.grid.freq j] → ∀ l : Nat × ℝ, Cell .linear a (a'.grid.freq j) l.1 l.2 →
        t (ipre ++ (j :: ks) ++ iK :: ipost) = (1 - l.2) • s (ipre ++ (l.1 :: ks) ++ iK :: ipost)
          + l.2 • s (ipre ++ ((l.1 + 1) :: ks) ++ iK :: ipost)) := by
    intro ks hks
    obtain ⟨r1, r2⟩ := p ipre (j :: ks) iK ipost h1 (List.Forall₂.cons hj hks) h3 h4
    constructor
    · intro hb
      refine r1 fun hb' => hb ?_
      simp only [id, pts, List.zipWith_cons_cons, allInBox, List.forall₂_cons] at hb'
      exact List.Forall₂.cons hb'.1 List.Forall₂.nil
    · intro hb l hl
      simp only [allInBox, List.forall₂_cons] at hb
      obtain ⟨loc, c, e1⟩ := r2 (List.Forall₂.cons hb.1 (hoas ks hks).2)
      rw [e1, multilin_eq_nest loc (fun k => s (ipre ++ k ++ iK :: ipost))]
      match loc, c with
      | [], c => have := c.1; simp at this
      | l' :: ls, c =>
        obtain ⟨cl, ct⟩ := Cells.tail (w := a'.grid.freq j) (ws := pts as ks) c
        simp only [nest]
        rw [nest_node hvs hks ct, nest_node hvs hks ct]
        exact cell_unique hva cl hl (fun i => s (ipre ++ (i :: ks) ++ iK :: ipost))
  by_cases ba : allInBox tol [a] [a'.grid.freq j]
  · by_cases bs : allInBox tol as (pts as' js)
    · -- inside in both directions
      have ba' := ba
      simp only [allInBox, List.forall₂_cons] at ba'
      obtain ⟨loc, cl, el⟩ := m2 (by
        have := (hoa [j] (List.Forall₂.cons (by show j < a'.grid.n; omega) List.Forall₂.nil)).2
        simp only [pts, List.zipWith_cons_cons, List.zipWith_nil_right, allInBox, List.forall₂_cons] at this
        exact List.Forall₂.cons this.1 bs)
      obtain ⟨loc', cl', el'⟩ := d2 (List.Forall₂.cons ba'.1 bs)
      rw [el, el', multilin_eq_nest loc (fun k => t (ipre ++ k ++ iK :: ipost)),
        multilin_eq_nest loc' (fun k => s (ipre ++ k ++ iK :: ipost))]
      match loc, cl, loc', cl' with
      | [], cl, _, _ => have := cl.1; simp at this
      | _ :: _, _, [], cl' => have := cl'.1; simp at this
      | l :: ls, cl, l' :: ls', cl' =>
        obtain ⟨q1, q2⟩ := Cells.tail (w := a'.grid.freq j) (ws := pts as' js) cl
        obtain ⟨q1', q2'⟩ := Cells.tail (w := a'.grid.freq j) (ws := pts as' js) cl'
        have hwl : (pts as' js).length = as.length := (List.Forall₂.length_eq bs).symm
        rw [nest_head ha (hna ▸ hj) q1 (fun k => t (ipre ++ k ++ iK :: ipost))]
        rw [nest_congr q2 hwl (F := fun o => t (ipre ++ (j :: o) ++ iK :: ipost))
          (G := fun o => (1 - l'.2) • s (ipre ++ (l'.1 :: o) ++ iK :: ipost)
            + l'.2 • s (ipre ++ ((l'.1 + 1) :: o) ++ iK :: ipost))
          (fun o ho => (hmid o ho).2 ba l' q1'), nest_add]
        simp only [nest]
        rw [nest_unique hvs hwl q2 q2', nest_unique hvs hwl q2 q2']
    · rw [m1 fun hb => bs ?_, d1 fun hb => bs ?_]
      · simp only [id, pts, List.zipWith_cons_cons, allInBox, List.forall₂_cons] at hb
        exact hb.2
      · simp only [id, pts, List.zipWith_cons_cons, allInBox, List.forall₂_cons] at hb
        exact hb.2
  · rw [d1 fun hb => ba (by
      simp only [id, pts, List.zipWith_cons_cons, allInBox, List.forall₂_cons] at hb
      exact List.Forall₂.cons hb.1 List.Forall₂.nil)]
    by_cases bs : allInBox tol as (pts as' js)
    · obtain ⟨loc, cl, el⟩ := m2 (by
        have := (hoa [j] (List.Forall₂.cons (by show j < a'.grid.n; omega) List.Forall₂.nil)).2
        simp only [pts, List.zipWith_cons_cons, List.zipWith_nil_right, allInBox, List.forall₂_cons] at this
        exact List.Forall₂.cons this.1 bs)
      rw [el, multilin_eq_nest loc (fun k => t (ipre ++ k ++ iK :: ipost))]
      match loc, cl with
      | [], cl => have := cl.1; simp at this
      | l :: ls, cl =>
        obtain ⟨q1, q2⟩ := Cells.tail (w := a'.grid.freq j) (ws := pts as' js) cl
        have hwl : (pts as' js).length = as.length := (List.Forall₂.length_eq bs).symm
        rw [nest_head ha (hna ▸ hj) q1 (fun k => t (ipre ++ k ++ iK :: ipost)),
          nest_congr q2 hwl (F := fun o => t (ipre ++ (j :: o) ++ iK :: ipost)) (G := fun _ => 0)
            (fun o ho => (hmid o ho).1 ba), nest_zero]
    · refine (m1 fun hb => bs ?_).symm
      simp only [id, pts, List.zipWith_cons_cons, allInBox, List.forall₂_cons] at hb
      exact hb.2

/-- **C121** is false for shifted grids, with either method's box test: a grid whose centre `c` lies at least the
tolerance below zero rejects its own first point (C25), and re-gridding on the *unchanged* grid replaces the
data there by zero. -/
theorem c121_shifted_refuted {a : Axis} {tol hw : ℝ} {data : MArr V} {pre post : List Nat}
    {nK : Nat} {s : List Nat → V} (h : Stored .linear id [a] data pre post nK s)
    (hl : a.grid.lower = a.center - hw) (hu : a.grid.upper = a.center + hw) (hc : a.center ≤ - tol)
    {sched : List Nat} (hs : Complete data.len.prod sched) :
    ∃ out t, regrid .linear id id [a] [a] tol data pre.length sched = .ok out ∧ Represents out data.len t ∧
      ∀ ipre iK ipost, InRange ipre pre → iK < nK → InRange ipost post →
        t (ipre ++ [0] ++ iK :: ipost) = 0 := by
  have hv := h.valid a (by simp)
  obtain ⟨out, t, e, hr, p⟩ := c121_values (unconv := id) (new := [a]) (tol := tol) h rfl
    (fun js hj _ => pts_inside_linear h.valid hj) hs
  refine ⟨out, t, e, hr, fun ipre iK ipost h1 h3 h4 => ?_⟩
  refine (p ipre [0] iK ipost h1 (List.Forall₂.cons (by have := hv.two; show 0 < a.grid.n; omega) List.Forall₂.nil)
    h3 h4).1 fun hb => ?_
  simp only [id, pts, List.zipWith_cons_cons, List.zipWith_nil_right, allInBox, List.forall₂_cons] at hb
  have hb1 := hb.1
  rw [inBox, (c22_span_increasing hv).1, hl, hu, abs_lt] at hb1
  linarith [hb1.1]

/-! ### Concrete cases -/

theorem exStored (meth : Method) : Stored meth id [exAxis] exData [1] [1] 1
    (fun idx => [3, 1, 4, 1, 5].getD (idx.getD 1 0) 0) where
  one := by simp
  three := by simp
  valid := exBuffer.valid
  small := exBuffer.small
  noConv := fun _ _ _ => rfl
  shape := exBuffer.shape
  internal := by simp
  values := by
    refine ⟨exBuffer.wf, rfl, fun idx hi => ?_⟩
    match idx, hi with
    | [i, k, l, m], hi =>
      simp only [exData, InRange, List.forall₂_cons] at hi
      obtain ⟨h1, h2, h3, h4, _⟩ := hi
      obtain rfl : i = 0 := by omega
      obtain rfl : l = 0 := by omega
      obtain rfl : m = 0 := by omega
      interval_cases k <;> rfl
    | [], hi => simp [exData, InRange] at hi
    | [_], hi => simp [exData, InRange] at hi
    | [_, _], hi => simp [exData, InRange] at hi
    | [_, _, _], hi => simp [exData, InRange] at hi
    | _ :: _ :: _ :: _ :: _ :: _, hi => simp [exData, InRange] at hi

/-- Two threads, interleaved. -/
example : Complete exData.len.prod [0, 1, 0, 2, 1, 2, 3, 4, 3, 4] := by
  intro k
  simp [exData]
  omega

/-- The unchanged grid with the linear method. -/
example : regrid .linear id id [exAxis] [exAxis] (1/10^5) exData 1 [0, 1, 0, 2, 1, 2, 3, 4, 3, 4] = .ok exData :=
  c121_same_grid_partial (exStored .linear)
    (ownBox_centred (by norm_num) (by
      intro a ha
      simp only [List.mem_singleton] at ha
      subst ha
      refine ⟨exBuffer.valid _ (by simp), rfl, by simp [exAxis, keldyshGrid]⟩) (fun _ => rfl))
    (by intro k; simp [exData]; omega)

/-- The same with the default method. -/
example : regrid .linearOnAux id id [exAxis] [exAxis] (1/10^5) exData 1 [0, 1, 2, 3, 4] = .error .undefined :=
  c121_same_grid_refuted (by norm_num) (exStored .linearOnAux) rfl (by simp [exAxis, keldyshGrid])
    (by simp [exData]) (by intro k; simp [exData]; omega)

/-- A narrower new grid is covered, so that the general theorems apply to the default method. -/
example : Covered .linearOnAux id id [exAxis] [⟨keldyshGrid 1 0 (1/2) 5, 0⟩] (1/10^5) := by
  intro js hj _
  match js, hj with
  | [j], hj =>
    have hv := keldyshGrid_valid (W := 1) (a := 1/2) one_pos (by norm_num) 0 (n := 5) (by norm_num)
    obtain ⟨e0, e1, inc⟩ := c22_span_increasing hv
    have hj' : j < 5 := by
      simp only [List.map_cons, List.map_nil, InRange, List.forall₂_cons, keldyshGrid] at hj; exact hj.1
    refine List.Forall₂.cons ?_ List.Forall₂.nil
    have lo : (-(1/2) : ℝ) ≤ (keldyshGrid 1 0 (1/2) 5).freq j := by
      have e0' : (keldyshGrid 1 0 (1/2) 5).freq 0 = -(1/2) := by rw [e0]; simp [keldyshGrid]
      rcases Nat.eq_zero_or_pos j with rfl | h
      · exact e0'.ge
      · rw [← e0']; exact (inc 0 j h hj').1.le
    have hi : (keldyshGrid 1 0 (1/2) 5).freq j ≤ 1/2 := by
      have e1' : (keldyshGrid 1 0 (1/2) 5).freq 4 = 1/2 := by
        have := e1; simp only [keldyshGrid] at this ⊢; simpa using this
      rcases lt_or_eq_of_le (Nat.le_of_lt_succ hj') with h | h
      · exact (inc j 4 h (by show 4 < 5; norm_num)).1.le.trans e1'.le
      · rw [h]; exact e1'.le
    simp only [Inside, exAxis, keldyshGrid] at lo hi ⊢
    exact ⟨by linarith, by linarith⟩
  | [], hj => simp [InRange] at hj
  | _ :: _ :: _, hj => simp [InRange] at hj

end Verif.Buffer
