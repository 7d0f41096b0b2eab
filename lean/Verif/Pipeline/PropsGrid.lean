import Verif.Pipeline.Props
import Verif.FreqGrid.Props

/-! C148: the frequency grids of the real-frequency formalism meet the requirements. -/
namespace Verif.Pipeline
open Verif.Symmetries Verif.FreqGrid

/-- Reading `all_frequencies[i]`; `junk` is what the memory outside the vector holds. -/
noncomputable def readJ (g : Grid) (junk : Int → ℝ) (i : Int) : ℝ :=
  if 0 ≤ i ∧ i < g.n then g.freq i.toNat else junk i

/-- `get_grid_index(t, w_in)`, /repo/source/grids/frequency_grid.c++:153-173, without the assertions and with arbitrary
memory behind the vector, followed by the weight of `interpolate_lin_on_aux1D`,
/repo/source/interpolations/InterpolatorLinOrSloppy.hpp:196-206. -/
noncomputable def cellJ (g : Grid) (junk : Int → ℝ) (w : ℝ) : Nat × ℝ :=
  let t := g.toT w
  let i := trunc ((t - g.toT g.lower) / g.spacing)
  let i := if readJ g junk (i + 1) < w ∧ i < (g.n : Int) - 1 then i + 1 else i
  let i := if readJ g junk i > w ∧ i > 0 then i - 1 else i
  let i := (g.clamp i).toNat
  (i, (t - g.aux i) / (g.aux (i + 1) - g.aux i))

/-- The look-up of a grid point finds that point, whatever lies behind the vector. -/
theorem cellJ_point {g : Grid} (h : g.Valid) (junk : Int → ℝ) {i : Nat} (hi : i < g.n) :
    ((cellJ g junk (g.freq i)).1 = i ∧ (cellJ g junk (g.freq i)).2 = 0) ∨
    ((cellJ g junk (g.freq i)).1 + 1 = i ∧ (cellJ g junk (g.freq i)).2 = 1) := by
  obtain ⟨h0, hN, hmono⟩ := c22_span_increasing h
  have hs := h.spacing_pos
  have h2 := h.two
  have hpos : (g.toT (g.freq i) - g.toT g.lower) / g.spacing = (i : ℝ) := by
    rw [h.toT_freq hi, h.aux_eq]; field_simp; ring
  have htr : trunc ((g.toT (g.freq i) - g.toT g.lower) / g.spacing) = (i : Int) := by
    rw [hpos, trunc_nonneg (Nat.cast_nonneg i)]; simp
  have hri : readJ g junk (i : Int) = g.freq i := by simp [readJ, hi]
  have hc1 : ¬ (readJ g junk ((i : Int) + 1) < g.freq i ∧ (i : Int) < (g.n : Int) - 1) := by
    rintro ⟨a, b⟩
    have hlt : i + 1 < g.n := by omega
    have : readJ g junk ((i : Int) + 1) = g.freq (i + 1) := by
      have e : ((i : Int) + 1) = ((i + 1 : Nat) : Int) := by push_cast; ring
      rw [e]; simp only [readJ]; rw [if_pos ⟨by omega, by omega⟩]; simp
    rw [this] at a
    have := (hmono i (i + 1) (by omega) hlt).1
    linarith
  have hc2 : ¬ (readJ g junk (i : Int) > g.freq i ∧ (i : Int) > 0) := by
    rw [hri]; rintro ⟨a, _⟩; exact lt_irrefl _ a
  have e : cellJ g junk (g.freq i) = ((g.clamp (i : Int)).toNat,
      (g.aux i - g.aux (g.clamp (i : Int)).toNat) / (g.aux ((g.clamp (i : Int)).toNat + 1) -
        g.aux (g.clamp (i : Int)).toNat)) := by
    unfold cellJ
    simp only [htr, if_neg hc1, if_neg hc2]
    rw [h.toT_freq hi]
  rw [e]
  by_cases hlt : i + 1 < g.n
  · left
    rw [Grid.clamp_cell hlt]; simp
  · right
    have hin : i = g.n - 1 := by omega
    have hcl : g.clamp (i : Int) = ((g.n - 2 : Nat) : Int) := by unfold Grid.clamp; omega
    rw [hcl]
    simp only [Int.toNat_natCast]
    have e2 : g.n - 2 + 1 = i := by omega
    rw [e2]
    refine ⟨rfl, div_self ?_⟩
    have := (hmono (g.n - 2) i (by omega) hi).2
    linarith

/-- Where the assertions and the access to the vector are modelled (`Grid.index2`), the result is the same. -/
theorem cellJ_index2 {g : Grid} (h : g.Valid) (junk : Int → ℝ) {w : ℝ} (h1 : g.lower ≤ w) (h2 : w < g.upper) :
    g.index2 w = .ok (g.toT w, ((cellJ g junk w).1 : Int)) := by
  obtain ⟨i, -, e2, e3, hi, ha, hb⟩ := c23_cell_partial h h1 h2
  obtain ⟨j, e, hj, a, b⟩ := h.cell h1 h2
  have hij : j = i := by
    obtain ⟨_, _, hm⟩ := c22_span_increasing h
    by_contra hne
    rcases Nat.lt_or_gt_of_ne hne with hlt | hlt
    · rcases Nat.lt_or_ge (j + 1) i with h' | h'
      · have := (hm (j + 1) i h' (by omega)).1; linarith
      · have : j + 1 = i := by omega
        rw [this] at b; linarith
    · rcases Nat.lt_or_ge (i + 1) j with h' | h'
      · have := (hm (i + 1) j h' (by omega)).1; linarith
      · have : i + 1 = j := by omega
        rw [this] at hb; linarith
  subst hij
  have e' : trunc ((g.toT w - g.toT g.lower) / g.spacing) = (j : Int) := e
  have r1 : readJ g junk ((j : Int) + 1) = g.freq (j + 1) := by
    have e : ((j : Int) + 1) = ((j + 1 : Nat) : Int) := by push_cast; ring
    rw [e]; simp only [readJ]; rw [if_pos ⟨by omega, by omega⟩]; simp
  have r0 : readJ g junk (j : Int) = g.freq j := by
    simp only [readJ]; rw [if_pos ⟨by omega, by omega⟩]; simp
  have n1 : ¬ (g.freq (j + 1) < w ∧ (j : Int) < (g.n : Int) - 1) := by rintro ⟨x, _⟩; linarith
  have n0 : ¬ (g.freq j > w ∧ (j : Int) > 0) := by rintro ⟨x, _⟩; linarith
  rw [e2]
  unfold cellJ
  simp only [e', r1, if_neg n1, r0, if_neg n0, Grid.clamp_cell hj]
  simp

/-- The grids of a buffer built from a bosonic and a fermionic grid of the code. -/
noncomputable def gridsOf (gw gv : Grid) (junk : Int → ℝ) : Grids ℝ :=
  ⟨gw.n, gv.n, gw.freq, gv.freq, cellJ gw junk, cellJ gv junk⟩

/-- C148: the default grids of the real-frequency formalism, centred at zero, meet the requirements of the other theorems
for every scale, width and number of points, and whatever lies in memory behind the vector of the frequencies. -/
theorem c148_grid {Ww Wv aw av : ℝ} (hWw : 0 < Ww) (hWv : 0 < Wv) (haw : 0 < aw) (hav : 0 < av) {nw nv : Nat}
    (hnw : 2 ≤ nw) (hnv : 2 ≤ nv) (junk : Int → ℝ) :
    GoodGrids (gridsOf (keldyshGrid Ww 0 aw nw) (keldyshGrid Wv 0 av nv) junk) where
  symW i hi := by
    have := (c22_default hWw haw 0 hnw).2.2.2 i hi
    rw [sub_zero, sub_zero] at this
    exact this
  symV i hi := by
    have := (c22_default hWv hav 0 hnv).2.2.2 i hi
    rw [sub_zero, sub_zero] at this
    exact this
  cellW i hi := cellJ_point (keldyshGrid_valid hWw haw 0 hnw) junk hi
  cellV i hi := cellJ_point (keldyshGrid_valid hWv hav 0 hnv) junk hi

end Verif.Pipeline
