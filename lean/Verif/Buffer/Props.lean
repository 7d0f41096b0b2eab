import Verif.Buffer.LemmasGrid

/-! C121: changing the frequency grid of stored data. -/
namespace Verif.Buffer
open Verif Verif.Index Verif.MultiArray Verif.Interp Verif.FreqGrid

variable {V : Type} [AddCommGroup V] [Module ℝ V]

/-- The points of the new grid that the old box accepts can be looked up on the old grid (C24 lists the
exceptions: the upper edge and the tolerance zone around the box). -/
def Covered (meth : Method) (conv unconv : List ℝ → List ℝ) (old new : List Axis) (tol : ℝ) : Prop :=
  ∀ js, InRange js (new.map (·.grid.n)) → allInBox tol old (conv (unconv (pts new js))) →
    List.Forall₂ (Inside meth) old (conv (unconv (pts new js)))

/-- **C121**. After a change of the grid the buffer holds, at every point of the new grid and for every other
index, the multilinear interpolation of the old data at that frequency, and zero where the old box does not
contain it.  This holds for every number of threads and every interleaving of them. -/
theorem c121_values {meth : Method} {conv unconv : List ℝ → List ℝ} {old new : List Axis} {tol : ℝ}
    {data : MArr V} {pre post : List Nat} {nK : Nat} {s : List Nat → V}
    (h : Stored meth conv old data pre post nK s) (hn : new.map (·.grid.n) = old.map (·.grid.n))
    (hc : Covered meth conv unconv old new tol) {sched : List Nat} (hs : Complete data.len.prod sched) :
    ∃ out t, regrid meth conv unconv old new tol data pre.length sched = .ok out ∧
      Represents out data.len t ∧
      ∀ ipre js iK ipost, InRange ipre pre → InRange js (old.map (·.grid.n)) → iK < nK → InRange ipost post →
        (¬ allInBox tol old (conv (unconv (pts new js))) → t (ipre ++ js ++ iK :: ipost) = 0) ∧
        (allInBox tol old (conv (unconv (pts new js))) →
          ∃ loc, Cells meth old (conv (unconv (pts new js))) loc ∧
            t (ipre ++ js ++ iK :: ipost) = multilin (loc.map (·.2))
              fun o => s (ipre ++ List.zipWith (· + ·) (loc.map (·.1)) o ++ iK :: ipost)) := by
  classical
  have hval : ∀ idx, InRange idx data.len →
      ∃ x, regridValue meth conv unconv old new tol data pre.length idx = .ok x := by
    intro idx hidx
    rw [h.shape] at hidx
    obtain ⟨ipre, js, iK, ipost, rfl, h1, h2, h3, h4⟩ := split_index hidx
    by_cases hb : allInBox tol old (conv (unconv (pts new js)))
    · obtain ⟨loc, _, e⟩ := value_inside h hn h1 h2 h3 h4 hb (hc js (by rw [hn]; exact h2) hb)
      exact ⟨_, e⟩
    · exact ⟨0, value_outside h hn h1 h2 hb⟩
  let t : List Nat → V := fun idx =>
    if hi : InRange idx data.len then (hval idx hi).choose else 0
  have ht : ∀ idx, InRange idx data.len →
      regridValue meth conv unconv old new tol data pre.length idx = .ok (t idx) := by
    intro idx hi
    simp only [t, dif_pos hi]
    exact (hval idx hi).choose_spec
  obtain ⟨out, e, hr⟩ := regrid_spec h.values t ht hs
  refine ⟨out, t, e, hr, fun ipre js iK ipost h1 h2 h3 h4 => ?_⟩
  have hi : InRange (ipre ++ js ++ iK :: ipost) data.len := by rw [h.shape]; exact join_index h1 h2 h3 h4
  have e1 := ht _ hi
  constructor
  · intro hb
    rw [value_outside h hn h1 h2 hb] at e1
    exact (Except.ok.inj e1).symm
  · intro hb
    obtain ⟨loc, hcell, e2⟩ := value_inside h hn h1 h2 h3 h4 hb (hc js (by rw [hn]; exact h2) hb)
    rw [e2] at e1
    refine ⟨loc, hcell, ?_⟩
    rw [← Except.ok.inj e1]
    exact (multilin_eq_nest loc (fun k => s (ipre ++ k ++ iK :: ipost))).symm

/-- **C121** (threads). Two executions with different numbers of threads or different interleavings give the
same array. -/
theorem c121_schedule {meth : Method} {conv unconv : List ℝ → List ℝ} {old new : List Axis} {tol : ℝ}
    {data : MArr V} {pre post : List Nat} {nK : Nat} {s : List Nat → V}
    (h : Stored meth conv old data pre post nK s) (hn : new.map (·.grid.n) = old.map (·.grid.n))
    (hc : Covered meth conv unconv old new tol) {sched sched' : List Nat}
    (hs : Complete data.len.prod sched) (hs' : Complete data.len.prod sched') :
    regrid meth conv unconv old new tol data pre.length sched
      = regrid meth conv unconv old new tol data pre.length sched' := by
  obtain ⟨out, t, e, hr, p⟩ := c121_values h hn hc hs
  obtain ⟨out', t', e', hr', p'⟩ := c121_values h hn hc hs'
  rw [e, e']
  congr 1
  refine represents_unique (List.length_pos_iff.2 h.values.1.1) hr ⟨hr'.1, hr'.2.1, fun idx hi => ?_⟩
  rw [hr'.2.2 idx hi]
  congr 1
  rw [h.shape] at hi
  obtain ⟨ipre, js, iK, ipost, rfl, h1, h2, h3, h4⟩ := split_index hi
  obtain ⟨q1, q2⟩ := p ipre js iK ipost h1 h2 h3 h4
  obtain ⟨q1', q2'⟩ := p' ipre js iK ipost h1 h2 h3 h4
  by_cases hb : allInBox tol old (conv (unconv (pts new js)))
  · obtain ⟨loc, c, e1⟩ := q2 hb
    obtain ⟨loc', c', e1'⟩ := q2' hb
    rw [e1, e1', multilin_eq_nest loc (fun k => s (ipre ++ k ++ iK :: ipost)),
      multilin_eq_nest loc' (fun k => s (ipre ++ k ++ iK :: ipost))]
    exact nest_unique h.valid (hc js (by rw [hn]; exact h2) hb).length_eq.symm c' c _
  · rw [q1 hb, q1' hb]

/-- Every grid point of the product grid lies in its own box. -/
def OwnBox (conv unconv : List ℝ → List ℝ) (axes : List Axis) (tol : ℝ) : Prop :=
  ∀ js, InRange js (axes.map (·.grid.n)) → conv (unconv (pts axes js)) = pts axes js ∧
    allInBox tol axes (pts axes js)

/-- Grids centred at zero have this property. -/
theorem ownBox_centred {conv unconv : List ℝ → List ℝ} {axes : List Axis} {tol : ℝ} (ht : 0 < tol)
    (hv : ∀ a ∈ axes, a.grid.Valid ∧ a.center = 0 ∧ a.grid.lower = - a.grid.upper)
    (hconv : ∀ ws, conv (unconv ws) = ws) : OwnBox conv unconv axes tol := by
  intro js hj
  refine ⟨hconv _, ?_⟩
  clear hconv
  induction axes generalizing js with
  | nil => cases js with
    | nil => exact List.Forall₂.nil
    | cons j js => simp [InRange] at hj
  | cons a as ih => cases js with
    | nil => simp [InRange] at hj
    | cons j js =>
      simp only [List.map_cons, InRange, List.forall₂_cons] at hj
      refine List.Forall₂.cons ?_ (ih (fun b hb => hv b (by simp [hb])) js hj.2)
      obtain ⟨hva, h0, hl⟩ := hv a (by simp)
      obtain ⟨e0, e1, inc⟩ := c22_span_increasing hva
      have hlo : a.grid.lower ≤ a.grid.freq j := by
        rcases Nat.eq_zero_or_pos j with rfl | h
        · exact e0.ge
        · rw [← e0]; exact (inc 0 j h hj.1).1.le
      have hup : a.grid.freq j ≤ a.grid.upper := by
        rcases lt_or_eq_of_le (Nat.le_sub_one_of_lt hj.1) with h | h
        · rw [← e1]; exact (inc j _ h (by have := hva.two; omega)).1.le
        · rw [h]; exact e1.le
      unfold inBox
      rw [h0, sub_zero]
      exact (abs_le.2 ⟨by linarith, hup⟩).trans_lt (by linarith)

theorem pts_inside_linear {axes : List Axis} (hv : ∀ a ∈ axes, a.grid.Valid) {js : List Nat}
    (hj : InRange js (axes.map (·.grid.n))) : List.Forall₂ (Inside .linear) axes (pts axes js) := by
  induction axes generalizing js with
  | nil => cases js with
    | nil => exact List.Forall₂.nil
    | cons j js => simp [InRange] at hj
  | cons a as ih => cases js with
    | nil => simp [InRange] at hj
    | cons j js =>
      simp only [List.map_cons, InRange, List.forall₂_cons] at hj
      refine List.Forall₂.cons ?_ (ih (fun b hb => hv b (by simp [hb])) hj.2)
      have hva := hv a (by simp)
      obtain ⟨e0, e1, inc⟩ := c22_span_increasing hva
      constructor
      · rcases Nat.eq_zero_or_pos j with rfl | h
        · exact e0.ge
        · rw [← e0]; exact (inc 0 j h hj.1).1.le
      · rcases lt_or_eq_of_le (Nat.le_sub_one_of_lt hj.1) with h | h
        · show a.grid.freq j ≤ a.grid.upper
          rw [← e1]; exact (inc j _ h (by have := hva.two; omega)).1.le
        · show a.grid.freq j ≤ a.grid.upper
          rw [h]; exact e1.le

/-- **C121** (unchanged grid, linear method). If the grid does not change, the data do not change: every
stored value of the result is the original one. -/
theorem c121_same_grid_partial {conv unconv : List ℝ → List ℝ} {axes : List Axis} {tol : ℝ}
    {data : MArr V} {pre post : List Nat} {nK : Nat} {s : List Nat → V}
    (h : Stored .linear conv axes data pre post nK s) (ho : OwnBox conv unconv axes tol)
    {sched : List Nat} (hs : Complete data.len.prod sched) :
    regrid .linear conv unconv axes axes tol data pre.length sched = .ok data := by
  have hc : Covered .linear conv unconv axes axes tol := by
    intro js hj _
    rw [(ho js hj).1]
    exact pts_inside_linear h.valid hj
  obtain ⟨out, t, e, hr, p⟩ := c121_values h rfl hc hs
  rw [e]
  congr 1
  refine represents_unique (List.length_pos_iff.2 h.values.1.1) hr ⟨h.values.1, rfl, fun idx hi => ?_⟩
  rw [h.values.2.2 idx hi]
  congr 1
  rw [h.shape] at hi
  obtain ⟨ipre, js, iK, ipost, rfl, h1, h2, h3, h4⟩ := split_index hi
  obtain ⟨c1, c2⟩ := ho js h2
  obtain ⟨loc, c, e1⟩ := (p ipre js iK ipost h1 h2 h3 h4).2 (by rw [c1]; exact c2)
  rw [c1] at c
  rw [e1, multilin_eq_nest loc (fun k => s (ipre ++ k ++ iK :: ipost)), nest_node h.valid h2 c]

/-- **C121** is false for the default method: re-gridding a function of one frequency on its *unchanged* grid
reads outside the grid at the last grid point (C24, C40), for every centred grid and every schedule.
`optimize_grid` does exactly this as its first step. -/
theorem c121_same_grid_refuted {a : Axis} {tol : ℝ} (ht : 0 < tol) {data : MArr V} {pre post : List Nat}
    {nK : Nat} {s : List Nat → V} (h : Stored .linearOnAux id [a] data pre post nK s)
    (h0 : a.center = 0) (hl : a.grid.lower = - a.grid.upper) (hp : 0 < data.len.prod)
    {sched : List Nat} (hs : Complete data.len.prod sched) :
    regrid .linearOnAux id id [a] [a] tol data pre.length sched = .error .undefined := by
  have hv := h.valid a (by simp)
  have hu : 0 ≤ a.grid.upper := by have := hv.lt; linarith
  have ho : OwnBox id id [a] tol := ownBox_centred ht (by simpa using ⟨hv, h0, hl⟩) (fun _ => rfl)
  have hbad : ∀ ipre iK ipost, InRange ipre pre → iK < nK → InRange ipost post →
      regridValue .linearOnAux id id [a] [a] tol data pre.length (ipre ++ [a.grid.n - 1] ++ iK :: ipost)
        = .error .undefined := by
    intro ipre iK ipost h1 h3 h4
    have h2 : InRange [a.grid.n - 1] ([a].map (·.grid.n)) := by
      have := hv.two
      exact List.Forall₂.cons (by show a.grid.n - 1 < a.grid.n; omega) List.Forall₂.nil
    have hsub : ((ipre ++ [a.grid.n - 1] ++ iK :: ipost).drop pre.length).take [a].length = [a.grid.n - 1] := by
      rw [← h1.length_eq, List.append_assoc, List.drop_left]; rfl
    rw [regridValue, hsub, gridFreqs_ok h2]
    have := (c40_last_point_refuted hv h0 hu ht data pre.length 1 (ipre ++ [a.grid.n - 1] ++ iK :: ipost)).2
    simp only [bind, Except.bind, id, List.zipWith_cons_cons, List.zipWith_nil_right]
    rw [this]
  have hgood : ∀ ipre j iK ipost, InRange ipre pre → j + 1 < a.grid.n → iK < nK → InRange ipost post →
      ∃ x, regridValue .linearOnAux id id [a] [a] tol data pre.length (ipre ++ [j] ++ iK :: ipost) = .ok x := by
    intro ipre j iK ipost h1 hj h3 h4
    have h2 : InRange [j] ([a].map (·.grid.n)) := List.Forall₂.cons (by show j < a.grid.n; omega) List.Forall₂.nil
    obtain ⟨e0, e1, inc⟩ := c22_span_increasing hv
    obtain ⟨loc, _, e⟩ := value_inside (conv := id) (unconv := id) (new := [a]) h rfl h1 h2 h3 h4 (ho [j] h2).2
      (List.Forall₂.cons ⟨by
          rcases Nat.eq_zero_or_pos j with rfl | hj0
          · exact e0.ge
          · rw [← e0]; exact (inc 0 j hj0 (by omega)).1.le, by
          show a.grid.freq j < a.grid.upper
          rw [← e1]; exact (inc j _ (by omega) (by omega)).1⟩ List.Forall₂.nil)
    exact ⟨_, e⟩
  refine fold_fails (dims := data.len) .undefined _
    (fun k => ∃ ipre iK ipost, InRange ipre pre ∧ iK < nK ∧ InRange ipost post ∧
      getMultIndex k data.len = some (ipre ++ [a.grid.n - 1] ++ iK :: ipost))
    (fun acc => ∃ t, Represents acc data.len t) ?_ ?_ sched (fun k hk => (hs k).1 hk) ?_ _
    ⟨_, c04_make data.len 0 h.values.1.1⟩
  · rintro acc k ⟨t, ha⟩ hk hnb
    have hd : 1 ≤ data.len.length := List.length_pos_iff.2 h.values.1.1
    obtain ⟨is, g1, g2, g3⟩ := getMultIndex_spec k data.len (by omega) hk
    have g2' := g2
    rw [h.shape] at g2'
    obtain ⟨ipre, js, iK, ipost, rfl, q1, q2, q3, q4⟩ := split_index g2'
    match js, q2 with
    | [j], q2 =>
      have hj : j < a.grid.n := by
        simp only [List.map_cons, List.map_nil, InRange, List.forall₂_cons] at q2
        exact q2.1
      have hj' : j + 1 < a.grid.n := by
        by_contra hc
        have : j = a.grid.n - 1 := by omega
        subst this
        exact hnb ⟨ipre, iK, ipost, q1, q3, q4, g1⟩
      obtain ⟨x, ex⟩ := hgood ipre j iK ipost q1 hj' q3 q4
      obtain ⟨acc', e1, e2⟩ := exec_refines ha (.write _ x) g2
      refine ⟨acc', ?_, _, e2⟩
      simp only [regridStep, g1, ex, bind, Except.bind]
      exact e1
    | [], q2 => simp [InRange] at q2
    | _ :: _ :: _, q2 => simp [InRange] at q2
  · rintro acc k _ ⟨ipre, iK, ipost, q1, q3, q4, g1⟩
    simp only [regridStep, g1, hbad ipre iK ipost q1 q3 q4, bind, Except.bind]
  · have hpos : ∀ d ∈ data.len, 0 < d := by
      intro d hd
      rcases Nat.eq_zero_or_pos d with rfl | h
      · rw [List.prod_eq_zero hd] at hp; exact absurd hp (lt_irrefl _)
      · exact h
    have hz : ∀ l : List Nat, (∀ d ∈ l, 0 < d) → InRange (l.map fun _ => 0) l := by
      intro l hl
      induction l with
      | nil => exact List.Forall₂.nil
      | cons d l ih => exact List.Forall₂.cons (hl d (by simp)) (ih (fun e he => hl e (by simp [he])))
    rw [h.shape] at hpos
    have q1 := hz pre (fun d hd => hpos d (by simp [hd]))
    have q4 := hz post (fun d hd => hpos d (by simp [hd]))
    have q3 : 0 < nK := hpos nK (by simp)
    have q2 : InRange [a.grid.n - 1] ([a].map (·.grid.n)) := by
      have := hv.two
      exact List.Forall₂.cons (by show a.grid.n - 1 < a.grid.n; omega) List.Forall₂.nil
    have hin := join_index q1 q2 q3 q4
    rw [← h.shape] at hin
    refine ⟨rowMajor _ data.len, (hs _).2 (rowMajor_lt hin), _, 0, _, q1, q3, q4, ?_⟩
    exact getMultIndex_rowMajor hin (List.length_pos_iff.2 h.values.1.1)

end Verif.Buffer
