import Verif.Buffer.Lemmas
import Mathlib.Tactic.Module

/-! Lemmas on the value of the interpolant. -/
namespace Verif.Buffer
open Verif Verif.Index Verif.MultiArray Verif.Interp Verif.FreqGrid

variable {V : Type} [AddCommGroup V] [Module ℝ V]

/-- Grid points of a product grid. -/
noncomputable def pts (axes : List Axis) (js : List Nat) : List ℝ :=
  List.zipWith (fun (a : Axis) j => a.grid.freq j) axes js

theorem coord_lt {meth : Method} {a : Axis} (h : a.grid.Valid) {i j : Nat} (hij : i < j) (hj : j < a.grid.n) :
    coord meth a.grid i < coord meth a.grid j := by
  have := ((c22_span_increasing h).2.2 i j hij hj).1
  cases meth with
  | linear => exact this
  | linearOnAux => exact h.maps.toT_strictMono this

theorem cell_unique {meth : Method} {a : Axis} (hv : a.grid.Valid) {w : ℝ} {k k' : Nat} {d d' : ℝ}
    (h : Cell meth a w k d) (h' : Cell meth a w k' d') (f : Nat → V) :
    (1 - d) • f k + d • f (k + 1) = (1 - d') • f k' + d' • f (k' + 1) := by
  have main : ∀ {k k' : Nat} {d d' : ℝ}, Cell meth a w k d → Cell meth a w k' d' → k < k' →
      (1 - d) • f k + d • f (k + 1) = (1 - d') • f k' + d' • f (k' + 1) := by
    intro k k' d d' h h' hlt
    have hk : k' = k + 1 := by
      by_contra hne
      have h1 := ((c22_span_increasing hv).2.2 (k + 1) k' (by omega) (by have := h'.lt; omega)).1
      have := h.upper; have := h'.lower
      linarith
    subst hk
    have hw : w = a.grid.freq (k + 1) := le_antisymm h.upper h'.lower
    have e : coordOf meth a.grid w = coord meth a.grid (k + 1) := by rw [hw]; rfl
    have c1 := coord_lt (meth := meth) hv (Nat.lt_succ_self k) h.lt
    have c2 := coord_lt (meth := meth) hv (Nat.lt_succ_self (k + 1)) h'.lt
    have e1 := h.eq
    have e2 := h'.eq
    rw [e] at e1 e2
    have hd : d = 1 := by
      have : (1 - d) * (coord meth a.grid (k + 1) - coord meth a.grid k) = 0 := by linear_combination e1
      rcases mul_eq_zero.1 this with h | h <;> linarith
    have hd' : d' = 0 := by
      have : d' * (coord meth a.grid (k + 1 + 1) - coord meth a.grid (k + 1)) = 0 := by linear_combination -e2
      rcases mul_eq_zero.1 this with h | h <;> linarith
    rw [hd, hd']; simp
  rcases lt_trichotomy k k' with hlt | rfl | hlt
  · exact main h h' hlt
  · have c1 := coord_lt (meth := meth) hv (Nat.lt_succ_self k) h.lt
    have e1 := h.eq
    rw [h'.eq] at e1
    have : (d - d') * (coord meth a.grid (k + 1) - coord meth a.grid k) = 0 := by linear_combination -e1
    rcases mul_eq_zero.1 this with h | h
    · rw [show d = d' by linarith]
    · linarith
  · exact (main h' h hlt).symm

/-- All located cells are cells of the respective axis. -/
def Cells (meth : Method) (axes : List Axis) (ws : List ℝ) (loc : List (Nat × ℝ)) : Prop :=
  loc.length = axes.length ∧ ∀ i (_ : i < axes.length) (_ : i < ws.length) (_ : i < loc.length),
    Cell meth axes[i] ws[i] loc[i].1 loc[i].2

theorem Cells.tail {meth : Method} {a : Axis} {as : List Axis} {w : ℝ} {ws : List ℝ} {l : Nat × ℝ}
    {ls : List (Nat × ℝ)} (h : Cells meth (a :: as) (w :: ws) (l :: ls)) :
    Cell meth a w l.1 l.2 ∧ Cells meth as ws ls :=
  ⟨h.2 0 (by simp) (by simp) (by simp), by simpa using h.1,
    fun i h1 h2 h3 => h.2 (i + 1) (by simpa using h1) (by simpa using h2) (by simpa using h3)⟩

theorem nest_unique {meth : Method} {axes : List Axis} (hv : ∀ a ∈ axes, a.grid.Valid) {ws : List ℝ}
    (hw : ws.length = axes.length) {loc loc' : List (Nat × ℝ)} (h : Cells meth axes ws loc)
    (h' : Cells meth axes ws loc') (F : List Nat → V) : nest loc F = nest loc' F := by
  induction axes generalizing ws loc loc' F with
  | nil =>
    have e1 := List.length_eq_zero_iff.1 h.1
    have e2 := List.length_eq_zero_iff.1 h'.1
    rw [e1, e2]
  | cons a as ih =>
    match ws, loc, loc', hw, h, h' with
    | w :: ws, l :: ls, l' :: ls', hw, h, h' =>
      obtain ⟨c, t⟩ := h.tail
      obtain ⟨c', t'⟩ := h'.tail
      have r := fun F => ih (fun b hb => hv b (by simp [hb])) (by simpa using hw) t t' F
      simp only [nest]
      rw [r, r]
      exact cell_unique (hv a (by simp)) c c' (fun i => nest ls' (fun o => F (i :: o)))
    | [], _, _, hw, _, _ => simp at hw
    | _ :: _, [], _, _, h, _ => have := h.1; simp at this
    | _ :: _, _ :: _, [], _, _, h' => have := h'.1; simp at this

/-- At a grid point the interpolant is the stored value. -/
theorem nest_node {meth : Method} {axes : List Axis} (hv : ∀ a ∈ axes, a.grid.Valid) {js : List Nat}
    (hj : InRange js (axes.map (·.grid.n))) {loc : List (Nat × ℝ)} (h : Cells meth axes (pts axes js) loc)
    (F : List Nat → V) : nest loc F = F js := by
  induction axes generalizing js loc F with
  | nil =>
    have e1 := List.length_eq_zero_iff.1 h.1
    cases js with
    | nil => rw [e1]; rfl
    | cons j js => simp [InRange] at hj
  | cons a as ih =>
    match js, loc, hj, h with
    | j :: js, l :: ls, hj, h =>
      simp only [List.map_cons, InRange, List.forall₂_cons] at hj
      obtain ⟨c, t⟩ := Cells.tail (w := a.grid.freq j) (ws := pts as js) h
      have r := fun F => ih (fun b hb => hv b (by simp [hb])) hj.2 t F
      simp only [nest]
      rw [r, r]
      have hva := hv a (by simp)
      have inc := (c22_span_increasing hva).2.2
      have hl := c.lt
      have e := c.eq
      have ec : coordOf meth a.grid (a.grid.freq j) = coord meth a.grid j := rfl
      rw [ec] at e
      have c1 := coord_lt (meth := meth) hva (Nat.lt_succ_self l.1) hl
      rcases lt_trichotomy j l.1 with h1 | h1 | h1
      · have := (inc j l.1 h1 (by omega)).1
        have := c.lower; linarith
      · rw [h1] at e ⊢
        have : l.2 * (coord meth a.grid (l.1 + 1) - coord meth a.grid l.1) = 0 := by linear_combination -e
        rcases mul_eq_zero.1 this with h | h
        · rw [h]; simp
        · linarith
      · rcases eq_or_lt_of_le (Nat.succ_le_of_lt h1) with h2 | h2
        · have h2' : j = l.1 + 1 := h2.symm
          rw [h2'] at e ⊢
          have : (1 - l.2) * (coord meth a.grid (l.1 + 1) - coord meth a.grid l.1) = 0 := by
            linear_combination e
          rcases mul_eq_zero.1 this with h | h
          · rw [h, show l.2 = 1 by linarith]; simp
          · linarith
        · have := (inc (l.1 + 1) j h2 hj.1).1
          have := c.upper; linarith
    | [], _, hj, _ => simp [InRange] at hj
    | _ :: _, [], _, h => have := h.1; simp at this

theorem nest_add (ls : List (Nat × ℝ)) (x y : ℝ) (F G : List Nat → V) :
    nest ls (fun o => x • F o + y • G o) = x • nest ls F + y • nest ls G := by
  induction ls generalizing F G with
  | nil => rfl
  | cons l ls ih =>
    simp only [nest]
    rw [ih, ih]
    module

theorem nest_zero (ls : List (Nat × ℝ)) : nest ls (fun _ => (0 : V)) = 0 := by
  induction ls with
  | nil => rfl
  | cons l ls ih => simp only [nest]; rw [ih]; simp

/-- The interpolant inside the box. -/
theorem value_inside {meth : Method} {conv unconv : List ℝ → List ℝ} {old new : List Axis} {tol : ℝ}
    {data : MArr V} {pre post : List Nat} {nK : Nat} {s : List Nat → V}
    (h : Stored meth conv old data pre post nK s) (hn : new.map (·.grid.n) = old.map (·.grid.n))
    {ipre js ipost : List Nat} {iK : Nat} (h1 : InRange ipre pre) (h2 : InRange js (old.map (·.grid.n)))
    (h3 : iK < nK) (h4 : InRange ipost post)
    (hbox : allInBox tol old (conv (unconv (pts new js))))
    (hin : List.Forall₂ (Inside meth) old (conv (unconv (pts new js)))) :
    ∃ loc, Cells meth old (conv (unconv (pts new js))) loc ∧
      regridValue meth conv unconv old new tol data pre.length (ipre ++ js ++ iK :: ipost)
        = .ok (nest loc (fun k => s (ipre ++ k ++ iK :: ipost))) := by
  have hjl : js.length = old.length := by have := h2.length_eq; simpa using this
  have hnl : new.length = old.length := by have := congrArg List.length hn; simpa using this
  obtain ⟨loc, hl, hc, e⟩ := interpolate_cell (h.buffer h1 hjl h3 h4) hbox hin
  refine ⟨loc, ⟨hl, hc⟩, ?_⟩
  have hsub : ((ipre ++ js ++ iK :: ipost).drop pre.length).take new.length = js := by
    rw [← h1.length_eq, List.append_assoc, List.drop_left, hnl, ← hjl, List.take_left]
  rw [regridValue, hsub, gridFreqs_ok (by rw [hn]; exact h2)]
  simp only [bind, Except.bind]
  rw [show unconv (List.zipWith (fun (a : Axis) j => a.grid.freq j) new js) = unconv (pts new js) from rfl, e]
  simp only [List.range_one, List.map_cons, List.map_nil, pure, Except.pure]
  rw [multilin_eq_nest loc (fun k => s (ipre ++ k ++ iK :: ipost))]

/-- Outside the box. -/
theorem value_outside {meth : Method} {conv unconv : List ℝ → List ℝ} {old new : List Axis} {tol : ℝ}
    {data : MArr V} {pre post : List Nat} {nK : Nat} {s : List Nat → V}
    (h : Stored meth conv old data pre post nK s) (hn : new.map (·.grid.n) = old.map (·.grid.n))
    {ipre js ipost : List Nat} {iK : Nat} (h1 : InRange ipre pre) (h2 : InRange js (old.map (·.grid.n)))
    (hbox : ¬ allInBox tol old (conv (unconv (pts new js)))) :
    regridValue meth conv unconv old new tol data pre.length (ipre ++ js ++ iK :: ipost) = .ok 0 := by
  have hjl : js.length = old.length := by have := h2.length_eq; simpa using this
  have hnl : new.length = old.length := by have := congrArg List.length hn; simpa using this
  have hsub : ((ipre ++ js ++ iK :: ipost).drop pre.length).take new.length = js := by
    rw [← h1.length_eq, List.append_assoc, List.drop_left, hnl, ← hjl, List.take_left]
  rw [regridValue, hsub, gridFreqs_ok (by rw [hn]; exact h2)]
  simp only [bind, Except.bind]
  rw [show unconv (List.zipWith (fun (a : Axis) j => a.grid.freq j) new js) = unconv (pts new js) from rfl,
    c40_outside meth conv old tol data _ _ _ _ hbox]
  rfl

end Verif.Buffer
