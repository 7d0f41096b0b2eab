import Verif.Interp.Lemmas
import Mathlib.Tactic.IntervalCases

/-! C39, C40: linear interpolation of the stored data. -/
namespace Verif.Interp
open Verif Verif.Index Verif.FreqGrid Verif.MultiArray

variable {V : Type} [AddCommGroup V] [Module ℝ V]

/-- The coordinate in which a method interpolates: the frequency itself or the auxiliary variable. -/
def coordOf (meth : Method) (g : Grid) (w : ℝ) : ℝ :=
  match meth with
  | .linear => w
  | .linearOnAux => g.toT w

/-- Coordinate of the stored grid point number `i`. -/
noncomputable def coord (meth : Method) (g : Grid) (i : Nat) : ℝ := coordOf meth g (g.freq i)

/-- Arguments for which the look-up is defined (C24): the default method needs `w` below the upper edge. -/
def Inside (meth : Method) (a : Axis) (w : ℝ) : Prop :=
  a.grid.lower ≤ w ∧ match meth with
    | .linear => w ≤ a.grid.upper
    | .linearOnAux => w < a.grid.upper

/-- `w` lies in the cell with lower grid point `k`, at fraction `d` of it. -/
structure Cell (meth : Method) (a : Axis) (w : ℝ) (k : Nat) (d : ℝ) : Prop where
  lt : k + 1 < a.grid.n
  lower : a.grid.freq k ≤ w
  upper : w ≤ a.grid.freq (k + 1)
  strict : meth = .linearOnAux → w < a.grid.freq (k + 1)
  nonneg : 0 ≤ d
  le_one : d ≤ 1
  eq : coordOf meth a.grid w = (1 - d) * coord meth a.grid k + d * coord meth a.grid (k + 1)

theorem fraction {x lo hi : ℝ} (h : lo < hi) (h1 : lo ≤ x) (h2 : x ≤ hi) :
    0 ≤ (x - lo) / (hi - lo) ∧ (x - lo) / (hi - lo) ≤ 1 ∧
      x = (1 - (x - lo) / (hi - lo)) * lo + (x - lo) / (hi - lo) * hi := by
  have hp : 0 < hi - lo := by linarith
  refine ⟨div_nonneg (by linarith) hp.le, (div_le_one hp).mpr (by linarith), ?_⟩
  field_simp; ring

theorem locateLinear_cell {a : Axis} (h : a.grid.Valid) {w : ℝ} (hw : Inside .linear a w) :
    ∃ k d, locateLinear a.grid w w = .ok (k, d) ∧ Cell .linear a w k d := by
  obtain ⟨h1, h2⟩ := hw
  have hn := h.two
  have key : ∃ k : Nat, a.grid.indexLinear w = k ∧ k + 1 < a.grid.n ∧ a.grid.freq k ≤ w ∧
      w ≤ a.grid.freq (k + 1) := by
    rcases lt_or_eq_of_le h2 with hlt | heq
    · obtain ⟨i, _, _, e, hi, x, y⟩ := c23_cell_partial h h1 hlt
      exact ⟨i, e, hi, x, y.le⟩
    · obtain ⟨e, x, y⟩ := c23_upper_edge_linear h
      refine ⟨a.grid.n - 2, ?_, by omega, heq ▸ x, ?_⟩
      · rw [heq, e]; omega
      · rw [show a.grid.n - 2 + 1 = a.grid.n - 1 by omega, heq]; exact y
  obtain ⟨k, e, hk, x, y⟩ := key
  have hmono := ((c22_span_increasing h).2.2 k (k + 1) (by omega) hk).1
  obtain ⟨f0, f1, fe⟩ := fraction hmono x y
  have g0 : getFrequency a.grid (k : Int) = .ok (a.grid.freq k) := by
    simp [getFrequency, (by omega : k < a.grid.n)]
  have g1 : getFrequency a.grid ((k : Int) + 1) = .ok (a.grid.freq (k + 1)) := by
    have : ((k : Int) + 1).toNat = k + 1 := by omega
    simp [getFrequency, this, (by omega : (0:Int) ≤ (k:Int) + 1), (by omega : (k:Int) + 1 < a.grid.n)]
  refine ⟨k, _, ?_, hk, x, y, by simp, f0, f1, fe⟩
  simp only [locateLinear, e, g0, g1, bind, Except.bind, pure, Except.pure, Int.toNat_natCast]

theorem locateAux_cell {a : Axis} (h : a.grid.Valid) {w : ℝ} (hw : Inside .linearOnAux a w) :
    ∃ k d, locateAux a.grid w = .ok (k, d) ∧ Cell .linearOnAux a w k d := by
  obtain ⟨h1, h2⟩ := hw
  obtain ⟨k, _, e, _, hk, x, y⟩ := c23_cell_partial h h1 h2
  have t0 : coord .linearOnAux a.grid k = a.grid.aux k := h.toT_freq (by omega)
  have t1 : coord .linearOnAux a.grid (k + 1) = a.grid.aux (k + 1) := h.toT_freq hk
  have hmono := ((c22_span_increasing h).2.2 k (k + 1) (by omega) hk).1
  have hm := h.maps.toT_strictMono
  obtain ⟨f0, f1, fe⟩ := fraction (hm hmono) (hm.monotone x) (hm.monotone y.le)
  rw [h.toT_freq (by omega), h.toT_freq hk] at f0 f1 fe
  have g0 : getAux a.grid (k : Int) = .ok (a.grid.aux k) := by
    simp [getAux, (by omega : k < a.grid.n)]
  have g1 : getAux a.grid ((k : Int) + 1) = .ok (a.grid.aux (k + 1)) := by
    have : ((k : Int) + 1).toNat = k + 1 := by omega
    simp [getAux, this, (by omega : (0:Int) ≤ (k:Int) + 1), (by omega : (k:Int) + 1 < a.grid.n)]
  refine ⟨k, _, ?_, hk, x, y.le, fun _ => y, f0, f1, ?_⟩
  · simp only [locateAux, e, g0, g1, bind, Except.bind, pure, Except.pure, Int.toNat_natCast]
  · rw [t0, t1]; exact fe

/-- All axes of a buffer. -/
theorem locateAll_cell {meth : Method} {conv : List ℝ → List ℝ} {axes : List Axis} {freqs : List ℝ}
    (hv : ∀ a ∈ axes, a.grid.Valid) (hin : List.Forall₂ (Inside meth) axes (conv freqs))
    (h3 : meth = .linear → axes.length = 3 → conv freqs = freqs) :
    ∃ loc : List (Nat × ℝ), locateAll meth conv axes freqs = .ok loc ∧ loc.length = axes.length ∧
      ∀ i (h : i < axes.length) (h' : i < (conv freqs).length) (h'' : i < loc.length),
        Cell meth axes[i] (conv freqs)[i] loc[i].1 loc[i].2 := by
  cases meth with
  | linear =>
    have hs : (if axes.length = 3 then freqs else conv freqs) = conv freqs := by
      split_ifs with h
      · exact (h3 rfl h).symm
      · rfl
    simp only [locateAll, hs]
    generalize conv freqs = ws at hin ⊢
    clear h3 hs
    induction hin with
    | nil => exact ⟨[], rfl, rfl, by intro i h; simp at h⟩
    | @cons a w as ws h _ ih =>
      obtain ⟨k, d, e, c⟩ := locateLinear_cell (hv a List.mem_cons_self) h
      obtain ⟨loc, e', hl, c'⟩ := ih fun a ha => hv a (List.mem_cons_of_mem _ ha)
      refine ⟨(k, d) :: loc, ?_, by simp [hl], ?_⟩
      · simp only [List.zip_cons_cons, List.mapM_cons, e, e', bind, Except.bind, pure, Except.pure]
      · rintro (_ | i) h h' h''
        · exact c
        · exact c' i (by simpa using h) (by simpa using h') (by simpa using h'')
  | linearOnAux =>
    simp only [locateAll]
    generalize conv freqs = ws at hin ⊢
    clear h3
    induction hin with
    | nil => exact ⟨[], rfl, rfl, by intro i h; simp at h⟩
    | @cons a w as ws h _ ih =>
      obtain ⟨k, d, e, c⟩ := locateAux_cell (hv a List.mem_cons_self) h
      obtain ⟨loc, e', hl, c'⟩ := ih fun a ha => hv a (List.mem_cons_of_mem _ ha)
      refine ⟨(k, d) :: loc, ?_, by simp [hl], ?_⟩
      · simp only [List.zip_cons_cons, List.mapM_cons, e, e', bind, Except.bind, pure, Except.pure]
      · rintro (_ | i) h h' h''
        · exact c
        · exact c' i (by simpa using h) (by simpa using h') (by simpa using h'')

/-! ### The setting -/

/-- A buffer of interpolable data as the code builds it: one to three frequency axes in consecutive
positions, then the vectorised (Keldysh) axis, then internal axes of extent one; grids of fewer than ten
thousand points; no frequency conversion for the linear method in three dimensions. `F k v` is the stored
value at grid point `k`, component `v` counted from the requested one. -/
structure Buffer (meth : Method) (conv : List ℝ → List ℝ) (axes : List Axis) (data : MArr V)
    (pre junk post ipre ipost : List Nat) (nK iK vecsize : Nat) (F : List Nat → Nat → V) : Prop where
  one : 1 ≤ axes.length
  three : axes.length ≤ 3
  valid : ∀ a ∈ axes, a.grid.Valid
  small : ∀ a ∈ axes, a.grid.n ≤ 10001
  noConv : meth = .linear → axes.length = 3 → ∀ fs, conv fs = fs
  wf : data.WF
  shape : data.len = pre ++ axes.map (·.grid.n) ++ nK :: post
  lead : InRange ipre pre
  overwritten : junk.length = axes.length
  block : iK + vecsize ≤ nK
  pos : 0 < vecsize
  internal : post.prod = 1
  trailing : InRange ipost post
  values : ∀ k v, InRange k (axes.map (·.grid.n)) → v < vecsize →
    data.at (ipre ++ k ++ (iK + v) :: ipost) = .ok (F k v)

theorem trailing_zero {post ipost : List Nat} (h : InRange ipost post) (hp : post.prod = 1) :
    ∀ i ∈ ipost, i = 0 := by
  induction h with
  | nil => simp
  | @cons a b as bs hab _ ih =>
    rw [List.prod_cons] at hp
    have hb : b = 1 := Nat.dvd_one.mp ⟨_, hp.symm⟩
    subst hb
    intro i hi
    rcases List.mem_cons.mp hi with rfl | hi
    · omega
    · exact ih (by simpa using hp) i hi

/-- Inside the box the code returns, component by component, the multilinear combination of the data
stored at the corners of the cell that contains the argument. -/
theorem interpolate_cell {meth : Method} {conv : List ℝ → List ℝ} {axes : List Axis} {data : MArr V}
    {pre junk post ipre ipost : List Nat} {nK iK vecsize : Nat} {F : List Nat → Nat → V}
    (hb : Buffer meth conv axes data pre junk post ipre ipost nK iK vecsize F)
    {tol : ℝ} {freqs : List ℝ} (hbox : allInBox tol axes (conv freqs))
    (hin : List.Forall₂ (Inside meth) axes (conv freqs)) :
    ∃ loc : List (Nat × ℝ), loc.length = axes.length ∧
      (∀ i (h : i < axes.length) (h' : i < (conv freqs).length) (h'' : i < loc.length),
        Cell meth axes[i] (conv freqs)[i] loc[i].1 loc[i].2) ∧
      interpolate meth conv axes tol data pre.length vecsize freqs (ipre ++ junk ++ iK :: ipost)
        = .ok ((List.range vecsize).map fun v => multilin (loc.map (·.2))
            fun o => F (List.zipWith (· + ·) (loc.map (·.1)) o) v) := by
  obtain ⟨loc, e, hl, hc⟩ := locateAll_cell hb.valid hin (fun h h' => hb.noConv h h' _)
  have hwl : axes.length = (conv freqs).length := hin.length_eq
  refine ⟨loc, hl, hc, ?_⟩
  have hlt : ∀ i (h : i < axes.length) (h'' : i < loc.length), loc[i].1 + 1 < (axes[i]).grid.n :=
    fun i h h'' => (hc i h (hwl ▸ h) h'').lt
  have hsmall : ∀ p ∈ loc, p.1 < 10000 := by
    intro p hp
    obtain ⟨i, hi, rfl⟩ := List.getElem_of_mem hp
    have := hlt i (hl ▸ hi) hi
    have := hb.small _ (List.getElem_mem (hl ▸ hi : i < axes.length))
    omega
  have hset : setFrom (ipre ++ junk ++ iK :: ipost) pre.length (loc.map (·.1))
      = ipre ++ loc.map (·.1) ++ iK :: ipost := by
    rw [← hb.lead.length_eq]
    exact setFrom_append ipre junk (iK :: ipost) _ (by simp [hb.overwritten, hl])
  have hcorner : ∀ o, InRange o (List.replicate axes.length 2) →
      InRange (List.zipWith (· + ·) (loc.map (·.1)) o) (axes.map (·.grid.n)) := by
    intro o ho
    have hol : o.length = axes.length := by simpa using ho.length_eq
    unfold InRange
    rw [List.forall₂_iff_get]
    refine ⟨by simp [hol, hl], fun i h1 h2 => ?_⟩
    have hi : i < axes.length := by simpa using h2
    have ho2 : o[i]'(hol ▸ hi) < 2 := by
      have := (List.forall₂_iff_get.mp ho).2 i (hol ▸ hi) (by simpa using hi)
      simpa using this
    have := hlt i hi (hl ▸ hi)
    simp only [List.get_eq_getElem, List.getElem_zipWith, List.getElem_map]
    omega
  have hidx : ∀ o v, InRange o (List.replicate axes.length 2) →
      addAt (ipre ++ loc.map (·.1) ++ iK :: ipost) pre.length (o ++ [v])
        = ipre ++ List.zipWith (· + ·) (loc.map (·.1)) o ++ (iK + v) :: ipost := by
    intro o v ho
    rw [← hb.lead.length_eq]
    exact addAt_append ipre _ o v iK ipost (by simpa [hl] using ho.length_eq)
  obtain ⟨cols, hg, hcl, hcv⟩ := c06_sample_neighbourhood data hb.wf axes.length pre.length vecsize 2
    (ipre ++ loc.map (·.1) ++ iK :: ipost) hb.one hb.three hb.pos (by norm_num)
    (by rw [hb.shape]; simp)
    (by
      rw [hb.shape]
      have : (pre ++ axes.map (·.grid.n) ++ nK :: post).drop (pre.length + axes.length + 1) = post := by
        rw [show pre.length + axes.length + 1 = (pre ++ axes.map (·.grid.n)).length + 1 by simp,
          List.drop_append]
        simp
      rw [this]; exact hb.internal)
    (by
      have : (ipre ++ loc.map (·.1) ++ iK :: ipost).drop (pre.length + axes.length + 1) = ipost := by
        rw [show pre.length + axes.length + 1 = (ipre ++ loc.map (·.1)).length + 1 by
          simp [hb.lead.length_eq, hl], List.drop_append]
        simp
      rw [this]; exact trailing_zero hb.trailing hb.internal)
    (by
      intro o v ho hv
      rw [hidx o v ho, hb.shape]
      exact InRange.append (InRange.append hb.lead (hcorner o ho))
        (List.Forall₂.cons (by have := hb.block; omega) hb.trailing))
  have hw := matVec_weights (loc.map (·.2)) (by simpa [hl] using hb.one) (by simpa [hl] using hb.three)
    cols (by simpa [hl] using hcl) vecsize
  have hneg : ¬ ¬ (∀ p ∈ loc, p.1 < 10000) := fun h => h hsmall
  simp only [interpolate, if_pos hbox, e, hset, hg, hw, bind, Except.bind, pure, Except.pure, if_neg hneg]
  congr 1
  apply List.map_congr_left
  intro v hv
  apply multilin_congr
  intro o ho
  have ho' : InRange o (List.replicate axes.length 2) := by simpa [hl] using ho
  obtain ⟨col, x, h1, h2, h3, h4⟩ := hcv o v ho' (List.mem_range.mp hv)
  rw [hidx o v ho', hb.values _ _ (hcorner o ho') (List.mem_range.mp hv)] at h4
  have hx : F (List.zipWith (· + ·) (loc.map (·.1)) o) v = x := by simpa using h4
  rw [hx]
  simp only [List.length_map, hl, List.getD_eq_getElem?_getD, h1, Option.getD_some, h3]

/-! ### C39 -/

/-- **C39**, the weights: for normalised distances between zero and one – which is what the look-ups return
inside a cell, see `locateAll_cell` – the weights of `get_weights` are non-negative and sum to one. -/
theorem c39_partition_of_unity (ds : List ℝ) (h1 : 1 ≤ ds.length) (h3 : ds.length ≤ 3)
    (hd : ∀ d ∈ ds, 0 ≤ d ∧ d ≤ 1) :
    (weights ds).length = 2 ^ ds.length ∧ (∀ w ∈ weights ds, 0 ≤ w) ∧ (weights ds).sum = 1 := by
  match ds, h1, h3 with
  | [a], _, _ =>
    have ha := hd a (by simp)
    rw [weights_one]
    refine ⟨rfl, ?_, by simp⟩
    intro w hw
    simp only [List.mem_cons, List.not_mem_nil, or_false] at hw
    rcases hw with rfl | rfl <;> linarith [ha.1, ha.2]
  | [a, b], _, _ =>
    have ha := hd a (by simp)
    have hb := hd b (by simp)
    have ha' : 0 ≤ 1 - a := by linarith [ha.2]
    have hb' : 0 ≤ 1 - b := by linarith [hb.2]
    have ha0 := ha.1
    have hb0 := hb.1
    rw [weights_two]
    refine ⟨rfl, ?_, by simp; ring⟩
    intro w hw
    simp only [List.mem_cons, List.not_mem_nil, or_false] at hw
    rcases hw with rfl | rfl | rfl | rfl <;> positivity
  | [a, b, c], _, _ =>
    have ha := hd a (by simp)
    have hb := hd b (by simp)
    have hc := hd c (by simp)
    have ha' : 0 ≤ 1 - a := by linarith [ha.2]
    have hb' : 0 ≤ 1 - b := by linarith [hb.2]
    have hc' : 0 ≤ 1 - c := by linarith [hc.2]
    have ha0 := ha.1
    have hb0 := hb.1
    have hc0 := hc.1
    rw [weights_three]
    refine ⟨rfl, ?_, by simp; ring⟩
    intro w hw
    simp only [List.mem_cons, List.not_mem_nil, or_false] at hw
    rcases hw with rfl | rfl | rfl | rfl | rfl | rfl | rfl | rfl <;> positivity

example : (∀ d ∈ [(1/3 : ℝ), 1/2, 0], 0 ≤ d ∧ d ≤ 1) := by
  intro d hd
  simp only [List.mem_cons, List.not_mem_nil, or_false] at hd
  rcases hd with rfl | rfl | rfl <;> norm_num

/-- **C39**, the interpolated values: for real data, an argument inside the box lies in a cell, and every
component of the result lies between any common bounds of the data stored at the corners of that cell. -/
theorem c39_between_neighbours {meth : Method} {conv : List ℝ → List ℝ} {axes : List Axis} {data : MArr ℝ}
    {pre junk post ipre ipost : List Nat} {nK iK vecsize : Nat} {F : List Nat → Nat → ℝ}
    (hb : Buffer meth conv axes data pre junk post ipre ipost nK iK vecsize F)
    {tol : ℝ} {freqs : List ℝ} (hbox : allInBox tol axes (conv freqs))
    (hin : List.Forall₂ (Inside meth) axes (conv freqs)) :
    ∃ (ks : List Nat) (res : List ℝ), ks.length = axes.length ∧
      (∀ i (h : i < axes.length) (h' : i < (conv freqs).length) (h'' : i < ks.length),
        ks[i] + 1 < axes[i].grid.n ∧ axes[i].grid.freq ks[i] ≤ (conv freqs)[i] ∧
          (conv freqs)[i] ≤ axes[i].grid.freq (ks[i] + 1)) ∧
      interpolate meth conv axes tol data pre.length vecsize freqs (ipre ++ junk ++ iK :: ipost) = .ok res ∧
      res.length = vecsize ∧
      ∀ v (h : v < res.length) (lo hi : ℝ),
        (∀ o, InRange o (List.replicate axes.length 2) →
          lo ≤ F (List.zipWith (· + ·) ks o) v ∧ F (List.zipWith (· + ·) ks o) v ≤ hi) →
        lo ≤ res[v] ∧ res[v] ≤ hi := by
  obtain ⟨loc, hl, hc, he⟩ := interpolate_cell hb hbox hin
  have hwl : axes.length = (conv freqs).length := hin.length_eq
  refine ⟨loc.map (·.1), _, by simp [hl], ?_, he, by simp, ?_⟩
  · intro i h h' h''
    have := hc i h h' (by simpa using h'')
    rw [List.getElem_map]
    exact ⟨this.lt, this.lower, this.upper⟩
  · intro v h lo hi hall
    rw [List.getElem_map, List.getElem_range]
    apply multilin_bounds
    · intro d hd
      obtain ⟨i, hi', rfl⟩ := List.getElem_of_mem hd
      have hil : i < loc.length := by simpa using hi'
      have := hc i (hl ▸ hil) (hwl ▸ hl ▸ hil) hil
      rw [List.getElem_map]
      exact ⟨this.nonneg, this.le_one⟩
    · intro o ho
      exact hall o (by simpa [hl] using ho)

/-! ### C40 -/

/-- **C40**, grid points: at the grid point numbered `js` – for the default method below the last point of
each axis, for the linear method every point – the result is the stored value.  Missing: the last grid point
with the default method, where the look-up reads outside the grid (`c40_last_point_refuted`). -/
theorem c40_grid_point_partial {meth : Method} {conv : List ℝ → List ℝ} {axes : List Axis} {data : MArr V}
    {pre junk post ipre ipost : List Nat} {nK iK vecsize : Nat} {F : List Nat → Nat → V}
    (hb : Buffer meth conv axes data pre junk post ipre ipost nK iK vecsize F)
    {tol : ℝ} {freqs : List ℝ} (js : List Nat) (hjs : js.length = axes.length)
    (hconv : conv freqs = List.zipWith (fun (a : Axis) j => a.grid.freq j) axes js)
    (hj : ∀ i (h : i < axes.length) (h' : i < js.length), js[i] < axes[i].grid.n ∧
      (meth = .linearOnAux → js[i] + 1 < axes[i].grid.n))
    (hbox : allInBox tol axes (conv freqs)) :
    interpolate meth conv axes tol data pre.length vecsize freqs (ipre ++ junk ++ iK :: ipost)
      = .ok ((List.range vecsize).map fun v => F js v) := by
  have hin : List.Forall₂ (Inside meth) axes (conv freqs) := by
    rw [hconv, List.forall₂_iff_get]
    refine ⟨by simp [hjs], fun i h1 h2 => ?_⟩
    obtain ⟨a, b⟩ := hj i h1 (hjs ▸ h1)
    have hv := hb.valid _ (List.getElem_mem h1)
    obtain ⟨e0, e1, em⟩ := c22_span_increasing hv
    simp only [List.get_eq_getElem, List.getElem_zipWith]
    have hle : ∀ p q, p ≤ q → q < axes[i].grid.n → axes[i].grid.freq p ≤ axes[i].grid.freq q := by
      intro p q hpq hq
      rcases Nat.lt_or_ge p q with h | h
      · exact (em p q h hq).1.le
      · rw [show p = q by omega]
    refine ⟨?_, ?_⟩
    · rw [← e0]; exact hle _ _ (Nat.zero_le _) a
    · cases meth with
      | linear => exact e1 ▸ hle _ _ (by omega) (by omega)
      | linearOnAux => exact e1 ▸ (em _ _ (by have := b rfl; omega) (by omega)).1
  obtain ⟨loc, hl, hc, he⟩ := interpolate_cell hb hbox hin
  rw [he]
  congr 1
  apply List.map_congr_left
  intro v _
  refine multilin_corner js (loc.map (·.1)) (loc.map (·.2)) (by simp [hl, hjs]) ?_ (by simp [hl, hjs])
    (fun k => F k v)
  have hz : (loc.map (·.1)).zip (loc.map (·.2)) = loc := by
    rw [List.zip_map']; simp
  rw [hz, List.forall₂_iff_get]
  refine ⟨by simp [hl, hjs], fun i h1 h2 => ?_⟩
  have hi : i < axes.length := hjs ▸ h1
  have hwl : i < (conv freqs).length := by rw [hconv]; simp [hjs, hi]
  have cell := hc i hi hwl h2
  have hw : (conv freqs)[i]'hwl = axes[i].grid.freq (js[i]'h1) := by
    simp only [hconv, List.getElem_zipWith]
  rw [hw] at cell
  have hv := hb.valid _ (List.getElem_mem hi)
  obtain ⟨_, _, em⟩ := c22_span_increasing hv
  obtain ⟨hjn, _⟩ := hj i hi h1
  simp only [List.get_eq_getElem]
  have hcm : coord meth axes[i].grid loc[i].1 < coord meth axes[i].grid (loc[i].1 + 1) := by
    have := (em loc[i].1 (loc[i].1 + 1) (by omega) cell.lt).1
    cases meth with
    | linear => exact this
    | linearOnAux => exact hv.maps.toT_strictMono this
  have hcases : loc[i].1 = js[i] ∨ loc[i].1 + 1 = js[i] := by
    by_contra hne
    push Not at hne
    rcases Nat.lt_or_ge js[i] loc[i].1 with h | h
    · have := (em js[i] loc[i].1 h (by have := cell.lt; omega)).1
      linarith [cell.lower]
    · have := (em (loc[i].1 + 1) js[i] (by omega) hjn).1
      linarith [cell.upper]
  have heq : coord meth axes[i].grid js[i]
      = (1 - loc[i].2) * coord meth axes[i].grid loc[i].1
        + loc[i].2 * coord meth axes[i].grid (loc[i].1 + 1) := cell.eq
  have hne : coord meth axes[i].grid (loc[i].1 + 1) - coord meth axes[i].grid loc[i].1 ≠ 0 := by
    intro h; linarith
  rcases hcases with h | h
  · left
    refine ⟨h, ?_⟩
    rw [← h] at heq
    have : loc[i].2 * (coord meth axes[i].grid (loc[i].1 + 1) - coord meth axes[i].grid loc[i].1) = 0 := by
      linarith
    exact (mul_eq_zero.mp this).resolve_right hne
  · right
    refine ⟨h, ?_⟩
    rw [← h] at heq
    have : (1 - loc[i].2) *
        (coord meth axes[i].grid (loc[i].1 + 1) - coord meth axes[i].grid loc[i].1) = 0 := by
      linarith
    have := (mul_eq_zero.mp this).resolve_right hne
    linarith

/-- **C40**, affine data: if component `v` of the data is a function of the coordinates of the grid points
(the auxiliary variables for the default method, the frequencies for the linear method) that is affine in
each coordinate, the interpolation returns that function's value at the argument.  Missing: the upper edge
with the default method. -/
theorem c40_affine_partial {meth : Method} {conv : List ℝ → List ℝ} {axes : List Axis} {data : MArr V}
    {pre junk post ipre ipost : List Nat} {nK iK vecsize : Nat} {F : List Nat → Nat → V}
    (hb : Buffer meth conv axes data pre junk post ipre ipost nK iK vecsize F)
    {tol : ℝ} {freqs : List ℝ} (hbox : allInBox tol axes (conv freqs))
    (hin : List.Forall₂ (Inside meth) axes (conv freqs))
    (f : Nat → List ℝ → V) (hf : ∀ v, MultiAffine axes.length (f v))
    (hF : ∀ k v, F k v = f v (List.zipWith (fun (a : Axis) i => coord meth a.grid i) axes k)) :
    interpolate meth conv axes tol data pre.length vecsize freqs (ipre ++ junk ++ iK :: ipost)
      = .ok ((List.range vecsize).map fun v =>
          f v (List.zipWith (fun (a : Axis) w => coordOf meth a.grid w) axes (conv freqs))) := by
  obtain ⟨loc, hl, hc, he⟩ := interpolate_cell hb hbox hin
  have hwl : axes.length = (conv freqs).length := hin.length_eq
  rw [he]
  congr 1
  apply List.map_congr_left
  intro v _
  have key := multilin_affine (loc.map (·.2)) (loc.map (·.1)) (axes.map fun a => coord meth a.grid)
    (List.zipWith (fun (a : Axis) w => coordOf meth a.grid w) axes (conv freqs))
    (by simp) (by simp [hl]) (by simp [hl, ← hwl]) (f v) (by simpa [hl] using hf v) (by
      intro i h1
      have hil : i < loc.length := by simpa using h1
      simp only [List.getElem_zipWith, List.getElem_map]
      exact (hc i (hl ▸ hil) (hwl ▸ hl ▸ hil) hil).eq)
  rw [← key]
  simp only [hF, List.zipWith_map_left]

/-- **C40**, outside the box every component is zero. -/
theorem c40_outside (meth : Method) (conv : List ℝ → List ℝ) (axes : List Axis) (tol : ℝ) (data : MArr V)
    (pos vecsize : Nat) (freqs : List ℝ) (indices : List Nat)
    (h : ¬ allInBox tol axes (conv freqs)) :
    interpolate meth conv axes tol data pos vecsize freqs indices = .ok (List.replicate vecsize 0) := by
  simp only [interpolate, if_neg h]; rfl

/-- **C40** is false at the last grid point: with the default method the one-dimensional interpolation at
the upper limit of a centred grid has undefined behaviour (a read one entry beyond the grid). -/
theorem c40_last_point_refuted {a : Axis} (hv : a.grid.Valid) (hc : a.center = 0)
    (hu : 0 ≤ a.grid.upper) {tol : ℝ} (ht : 0 < tol) (data : MArr V) (pos vecsize : Nat)
    (indices : List Nat) :
    a.grid.freq (a.grid.n - 1) = a.grid.upper ∧
    interpolate .linearOnAux id [a] tol data pos vecsize [a.grid.freq (a.grid.n - 1)] indices
      = .error .undefined := by
  have e := (c22_span_increasing hv).2.1
  refine ⟨e, ?_⟩
  have hb : allInBox tol [a] (id [a.grid.freq (a.grid.n - 1)]) := by
    refine List.Forall₂.cons ?_ List.Forall₂.nil
    rw [e]
    unfold inBox
    rw [hc, sub_zero, abs_of_nonneg hu]; linarith
  have hr := (c24_upper_edge_refuted hv).2
  rw [← e] at hr
  unfold interpolate
  rw [if_pos hb]
  simp only [locateAll, id, List.zip_cons_cons, List.zip_nil_right, List.mapM_cons,
    locateAux, hr, bind, Except.bind]

/-! ### Non-vacuity -/

/-- A one-dimensional buffer on five points of `[-1, 1]` with one component. -/
noncomputable def exAxis : Axis := ⟨keldyshGrid 1 0 1 5, 0⟩

def exData : MArr ℝ := ⟨[1, 5, 1, 1], [5, 1, 1, 1], [3, 1, 4, 1, 5]⟩

theorem exBuffer : Buffer .linearOnAux id [exAxis] exData [1] [0] [1] [0] [0] 1 0 1
    (fun k _ => [3, 1, 4, 1, 5].getD (k.getD 0 0) 0) where
  one := by simp
  three := by simp
  valid := by
    intro a ha
    simp only [List.mem_singleton] at ha
    subst ha
    exact keldyshGrid_valid one_pos one_pos 0 (by norm_num)
  small := by intro a ha; simp only [List.mem_singleton] at ha; subst ha; simp [exAxis, keldyshGrid]
  noConv := by intro h; cases h
  wf := ⟨by simp [exData], by simp [exData], by rfl⟩
  shape := by simp [exData, exAxis, keldyshGrid]
  lead := List.Forall₂.cons (by norm_num) List.Forall₂.nil
  overwritten := rfl
  block := by norm_num
  pos := by norm_num
  internal := by simp
  trailing := List.Forall₂.cons (by norm_num) List.Forall₂.nil
  values := by
    intro k v hk hv
    match k, hk with
    | [k], hk =>
      have hk5 : k < 5 := by
        simp only [InRange, List.map_cons, List.map_nil, List.forall₂_cons] at hk
        exact hk.1
      have hv0 : v = 0 := by omega
      subst hv0
      interval_cases k <;> rfl

/-- A frequency between two grid points meets the hypotheses of the theorems above. -/
example : allInBox (1/10^5) [exAxis] (id [1/3]) ∧ List.Forall₂ (Inside .linearOnAux) [exAxis] (id [1/3]) := by
  refine ⟨List.Forall₂.cons ?_ List.Forall₂.nil, List.Forall₂.cons ?_ List.Forall₂.nil⟩
  · simp only [inBox, exAxis, keldyshGrid]
    rw [abs_of_nonneg] <;> norm_num
  · simp only [Inside, exAxis, keldyshGrid]; norm_num

end Verif.Interp
