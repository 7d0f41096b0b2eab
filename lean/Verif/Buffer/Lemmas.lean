import Verif.Buffer.Model
import Verif.Interp.Props
import Verif.MultiArray.Props
import Verif.Index.Props

/-! Lemmas on the change of the frequency grid. -/
namespace Verif.Buffer
open Verif Verif.Index Verif.MultiArray Verif.Interp

theorem represents_unique {α : Type} {m m' : MArr α} {dims : List Nat} {s : List Nat → α} (h2 : 1 ≤ dims.length)
    (h : Represents m dims s) (h' : Represents m' dims s) : m = m' := by
  obtain ⟨⟨w1, w2, w3⟩, l, v⟩ := h
  obtain ⟨⟨w1', w2', w3'⟩, l', v'⟩ := h'
  have he : m.elems = m'.elems := by
    apply List.ext_getElem?
    intro k
    by_cases hk : k < dims.prod
    · obtain ⟨is, h1, h2, h3⟩ := getMultIndex_spec k dims (by omega) hk
      have a := (at_eq_iff ⟨w1, w2, w3⟩ (by rw [l]; exact h2) _).1 (v is h2)
      have b := (at_eq_iff ⟨w1', w2', w3'⟩ (by rw [l']; exact h2) _).1 (v' is h2)
      rw [l, h3] at a
      rw [l', h3] at b
      rw [a, b]
    · rw [List.getElem?_eq_none (by rw [w2, l]; omega), List.getElem?_eq_none (by rw [w2', l']; omega)]
  cases m; cases m'
  simp_all

variable {V : Type} [AddCommGroup V] [Module ℝ V]

/-- A loop over flat positions that writes `g idx` at every position. -/
theorem fold_writes {dims : List Nat} (hd : 1 ≤ dims.length) (step : MArr V → Nat → Res (MArr V))
    (g : List Nat → V)
    (hstep : ∀ (acc : MArr V) (s : List Nat → V) k, k < dims.prod → Represents acc dims s →
      ∃ acc', step acc k = .ok acc' ∧
        Represents acc' dims (fun j => if rowMajor j dims = k then g j else s j))
    (sched : List Nat) (hs : ∀ k ∈ sched, k < dims.prod) (acc : MArr V) (s : List Nat → V)
    (ha : Represents acc dims s) :
    ∃ out, sched.foldlM step acc = .ok out ∧
      Represents out dims (fun j => if rowMajor j dims ∈ sched then g j else s j) := by
  induction sched generalizing acc s with
  | nil => exact ⟨acc, rfl, by simpa using ha⟩
  | cons k ks ih =>
    obtain ⟨acc', e, h'⟩ := hstep acc s k (hs k (by simp)) ha
    obtain ⟨out, e2, h2⟩ := ih (fun j hj => hs j (by simp [hj])) acc' _ h'
    refine ⟨out, ?_, ?_⟩
    · rw [List.foldlM_cons, e]; exact e2
    · convert h2 using 2 with j
      by_cases h1 : rowMajor j dims = k
      · simp [h1]
      · simp [h1]

/-- All iterations performed, none outside the array: what `threads` copies of the complete loop do, in any
interleaving. -/
def Complete (size : Nat) (sched : List Nat) : Prop := ∀ k, k ∈ sched ↔ k < size

theorem regrid_spec {meth : Method} {conv unconv : List ℝ → List ℝ} {old new : List Axis} {tol : ℝ}
    {data : MArr V} {pos : Nat} {s : List Nat → V} (hr : Represents data data.len s) (g : List Nat → V)
    (hg : ∀ idx, InRange idx data.len → regridValue meth conv unconv old new tol data pos idx = .ok (g idx))
    {sched : List Nat} (hs : Complete data.len.prod sched) :
    ∃ out, regrid meth conv unconv old new tol data pos sched = .ok out ∧ Represents out data.len g := by
  have hd : 1 ≤ data.len.length := List.length_pos_iff.2 hr.1.1
  obtain ⟨out, e, h⟩ := fold_writes hd (regridStep meth conv unconv old new tol data pos) g
    (by
      intro acc t k hk ha
      obtain ⟨is, h1, h2, h3⟩ := getMultIndex_spec k data.len (by omega) hk
      obtain ⟨acc', e1, e2⟩ := exec_refines ha (.write is (g is)) h2
      refine ⟨acc', ?_, ?_⟩
      · simp only [regridStep, h1, hg is h2, bind, Except.bind]
        exact e1
      · refine ⟨e2.1, e2.2.1, fun j hj => ?_⟩
        rw [e2.2.2 j hj]
        simp only [Op.meaning]
        by_cases hji : j = is
        · subst hji; simp [h3]
        · rw [if_neg hji, if_neg]
          intro hc
          exact hji (rowMajor_inj hj h2 (by rw [hc, h3])))
    sched (fun k hk => (hs k).1 hk) (MArr.make data.len 0) _ (c04_make data.len 0 hr.1.1)
  refine ⟨out, e, h.1, h.2.1, fun j hj => ?_⟩
  rw [h.2.2 j hj]
  show Except.ok (if rowMajor j data.len ∈ sched then g j else 0) = _
  rw [if_pos ((hs _).2 (rowMajor_lt hj))]

/-- If one of the iterations fails and no other one fails differently, so does the loop. -/
theorem fold_fails {dims : List Nat} {β : Type} (e : Fail) (step : β → Nat → Res β)
    (bad : Nat → Prop) (P : β → Prop)
    (hok : ∀ acc k, P acc → k < dims.prod → ¬ bad k → ∃ acc', step acc k = .ok acc' ∧ P acc')
    (hbad : ∀ acc k, P acc → bad k → step acc k = .error e)
    (sched : List Nat) (hs : ∀ k ∈ sched, k < dims.prod) (hb : ∃ k ∈ sched, bad k) (acc : β) (ha : P acc) :
    sched.foldlM step acc = .error e := by
  induction sched generalizing acc with
  | nil => simp at hb
  | cons k ks ih =>
    rw [List.foldlM_cons]
    by_cases hk : bad k
    · rw [hbad acc k ha hk]; rfl
    · obtain ⟨acc', e1, h1⟩ := hok acc k ha (hs k (by simp)) hk
      rw [e1]
      refine ih (fun j hj => hs j (by simp [hj])) ?_ acc' h1
      obtain ⟨j, hj, hbj⟩ := hb
      rcases List.mem_cons.1 hj with rfl | hj
      · exact absurd hbj hk
      · exact ⟨j, hj, hbj⟩

/-- Frequencies of a grid point of valid range. -/
theorem gridFreqs_ok {unconv : List ℝ → List ℝ} {axes : List Axis} {js : List Nat}
    (h : InRange js (axes.map (·.grid.n))) :
    gridFreqs unconv axes js = .ok (unconv (List.zipWith (fun (a : Axis) j => a.grid.freq j) axes js)) := by
  have : ∀ (axes : List Axis) (js : List Nat), InRange js (axes.map (·.grid.n)) →
      (List.zip axes js).mapM (fun p => getFrequency p.1.grid (p.2 : Int))
        = .ok (List.zipWith (fun (a : Axis) j => a.grid.freq j) axes js) := by
    intro axes
    induction axes with
    | nil => intro js _; cases js <;> rfl
    | cons a as ih =>
      intro js hj
      cases js with
      | nil => simp [InRange] at hj
      | cons j js =>
        simp only [List.map_cons, InRange, List.forall₂_cons] at hj
        have e : getFrequency a.grid (j : Int) = .ok (a.grid.freq j) := by
          simp [getFrequency, hj.1]
        simp only [List.zip_cons_cons, List.mapM_cons, e, ih js hj.2, bind, Except.bind, pure, Except.pure,
          List.zipWith_cons_cons]
  simp only [gridFreqs, this axes js h, bind, Except.bind, pure, Except.pure]

/-- A buffer as the code builds it: leading axes `pre`, one to three frequency axes, the Keldysh axis, internal
axes of extent one; `s` is the stored map. -/
structure Stored (meth : Method) (conv : List ℝ → List ℝ) (axes : List Axis) (data : MArr V)
    (pre post : List Nat) (nK : Nat) (s : List Nat → V) : Prop where
  one : 1 ≤ axes.length
  three : axes.length ≤ 3
  valid : ∀ a ∈ axes, a.grid.Valid
  small : ∀ a ∈ axes, a.grid.n ≤ 10001
  noConv : meth = .linear → axes.length = 3 → ∀ fs, conv fs = fs
  shape : data.len = pre ++ axes.map (·.grid.n) ++ nK :: post
  internal : post.prod = 1
  values : Represents data data.len s

theorem split_index {pre mid post idx : List Nat} {nK : Nat} (h : InRange idx (pre ++ mid ++ nK :: post)) :
    ∃ ipre js iK ipost, idx = ipre ++ js ++ iK :: ipost ∧ InRange ipre pre ∧ InRange js mid ∧ iK < nK ∧
      InRange ipost post := by
  unfold InRange at h
  have ha := List.forall₂_take_append _ _ _ h
  have hb := List.forall₂_drop_append _ _ _ h
  have h1 := List.forall₂_take_append _ _ _ ha
  have h2 := List.forall₂_drop_append _ _ _ ha
  rcases he : idx.drop (pre ++ mid).length with _ | ⟨x, xs⟩
  · rw [he] at hb; cases hb
  · rw [he] at hb
    rw [List.forall₂_cons] at hb
    refine ⟨_, _, x, xs, ?_, h1, h2, hb.1, hb.2⟩
    rw [List.take_append_drop, ← he, List.take_append_drop]

theorem join_index {pre mid post ipre js ipost : List Nat} {iK nK : Nat} (h1 : InRange ipre pre)
    (h2 : InRange js mid) (h3 : iK < nK) (h4 : InRange ipost post) :
    InRange (ipre ++ js ++ iK :: ipost) (pre ++ mid ++ nK :: post) :=
  List.rel_append (List.rel_append h1 h2) (List.Forall₂.cons h3 h4)

theorem Stored.buffer {meth : Method} {conv : List ℝ → List ℝ} {axes : List Axis} {data : MArr V}
    {pre post : List Nat} {nK : Nat} {s : List Nat → V} (h : Stored meth conv axes data pre post nK s)
    {ipre js ipost : List Nat} {iK : Nat} (h1 : InRange ipre pre) (h2 : js.length = axes.length)
    (h3 : iK < nK) (h4 : InRange ipost post) :
    Interp.Buffer meth conv axes data pre js post ipre ipost nK iK 1 (fun k _ => s (ipre ++ k ++ iK :: ipost)) where
  one := h.one
  three := h.three
  valid := h.valid
  small := h.small
  noConv := h.noConv
  wf := h.values.1
  shape := h.shape
  lead := h1
  overwritten := h2
  block := h3
  pos := by norm_num
  internal := h.internal
  trailing := h4
  values := by
    intro k v hk hv
    obtain rfl : v = 0 := by omega
    exact h.values.2.2 _ (by rw [h.shape]; exact join_index h1 hk h3 h4)

/-- Multilinear interpolation, written as a recursion over the located cells. -/
def nest : List (Nat × ℝ) → (List Nat → V) → V
  | [], F => F []
  | l :: ls, F => (1 - l.2) • nest ls (fun o => F (l.1 :: o)) + l.2 • nest ls (fun o => F ((l.1 + 1) :: o))

theorem multilin_eq_nest (ls : List (Nat × ℝ)) (F : List Nat → V) :
    multilin (ls.map (·.2)) (fun o => F (List.zipWith (· + ·) (ls.map (·.1)) o)) = nest ls F := by
  induction ls generalizing F with
  | nil => rfl
  | cons l ls ih =>
    simp only [List.map_cons, multilin, nest, List.zipWith_cons_cons, Nat.add_zero]
    rw [ih (fun o => F (l.1 :: o)), ih (fun o => F ((l.1 + 1) :: o))]

end Verif.Buffer
