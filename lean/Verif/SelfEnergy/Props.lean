import Verif.SelfEnergy.Model
import Verif.Interp.Props

namespace Verif.SelfEnergy

open Interp FreqGrid MultiArray Index

/-- C69. Outside the box the retarded component is the Hartree value and the Keldysh component vanishes —
whatever is stored, also on the margin of the box. -/
theorem c69_outside (meth : Method) (a : Axis) (hc : a.center = 0) (tol : ℝ) (data : MArr ℂ) (pos : Nat)
    (asymp : ℂ) (indices : List Nat) (v : ℝ) (hv : a.grid.upper + tol ≤ |v|) :
    valsmooth meth a tol data pos asymp false indices 0 v = .ok asymp ∧
      valsmooth meth a tol data pos asymp false indices 1 v = .ok 0 := by
  have key : ∀ iK, valsmooth meth a tol data pos asymp false indices iK v = .ok ((1 - (iK : ℂ)) * asymp) := by
    intro iK
    unfold valsmooth
    by_cases h : |v| > a.grid.upper + tol
    · rw [if_pos h]
    · have hb : ¬ allInBox tol [a] (id [v]) := by
        intro hb
        simp only [allInBox, id, List.forall₂_cons, inBox, hc, sub_zero] at hb
        linarith [hb.1]
      rw [if_neg h]
      simp [c40_outside _ _ _ _ _ _ _ _ _ hb, bind, Except.bind, pure, Except.pure]
  constructor
  · rw [key]; simp
  · rw [key]; simp

/-- C69 (below the upper edge of the grid for the default interpolation). Inside the box the value is the
interpolation between the stored values of the two neighbouring grid points plus, for the retarded
component, the Hartree value. -/
theorem c69_inside_partial {meth : Method} {a : Axis} {data : MArr ℂ} {pre junk post ipre ipost : List Nat}
    {nK iK : Nat} {F : List Nat → Nat → ℂ} (hb : Buffer meth id [a] data pre junk post ipre ipost nK iK 1 F)
    {tol : ℝ} (ht : 0 ≤ tol) (hc : a.center = 0) (asymp : ℂ) {v : ℝ}
    (hv : |v| < a.grid.upper + tol) (hin : Inside meth a v) :
    ∃ k d, Cell meth a v k d ∧
      valsmooth meth a tol data pre.length asymp false (ipre ++ junk ++ iK :: ipost) iK v
        = .ok ((1 - d) • F [k] 0 + d • F [k + 1] 0 + (1 - (iK : ℂ)) * asymp) := by
  have hbox : allInBox tol [a] (id [v]) := by
    simp only [allInBox, id, List.forall₂_cons, inBox, hc, sub_zero]
    exact ⟨hv, .nil⟩
  obtain ⟨loc, hl, hcell, he⟩ := interpolate_cell hb hbox (List.Forall₂.cons hin .nil)
  match loc, hl with
  | [(k, d)], _ =>
    refine ⟨k, d, hcell 0 (by simp) (by simp) (by simp), ?_⟩
    unfold valsmooth
    rw [if_neg (not_lt.mpr hv.le)]
    simp only [Bool.false_eq_true, if_false, he, bind, Except.bind, pure, Except.pure]
    simp [multilin]

/-- C69 fails exactly at the upper edge of the grid with the default interpolation: the value is read one
entry beyond the grid. -/
theorem c69_edge_refuted {a : Axis} (hg : a.grid.Valid) (hc : a.center = 0) (hu : 0 ≤ a.grid.upper)
    {tol : ℝ} (ht : 0 < tol) (data : MArr ℂ) (pos : Nat) (asymp : ℂ) (indices : List Nat) (iK : Nat) :
    valsmooth .linearOnAux a tol data pos asymp false indices iK a.grid.upper = .error .undefined := by
  obtain ⟨h1, h2⟩ := c40_last_point_refuted (V := ℂ) hg hc hu ht data pos 1 indices
  rw [h1] at h2
  unfold valsmooth
  rw [if_neg (by rw [abs_of_nonneg hu]; linarith)]
  simp only [Bool.false_eq_true, if_false, h2, bind, Except.bind]

/-- The stored data of the example. -/
noncomputable def exDataC : MArr ℂ := ⟨[1, 5, 1, 1], [5, 1, 1, 1], [3, Complex.I, 4, 1, 5]⟩

/-- A concrete self-energy on five points of `[-1, 1]` and a frequency between two of them. -/
example : ∃ k d, Cell .linearOnAux exAxis (1/3) k d ∧
    valsmooth .linearOnAux exAxis (1/10^5) exDataC 1 7 false [0, 0, 0, 0] 0 (1/3)
      = .ok ((1 - d) • ([3, Complex.I, 4, 1, 5] : List ℂ).getD k 0
          + d • ([3, Complex.I, 4, 1, 5] : List ℂ).getD (k + 1) 0 + (1 - ((0 : Nat) : ℂ)) * 7) := by
  have hb : Buffer .linearOnAux id [exAxis] exDataC [1] [0] [1] [0] [0] 1 0 1
      (fun k _ => ([3, Complex.I, 4, 1, 5] : List ℂ).getD (k.getD 0 0) 0) :=
    { one := by simp
      three := by simp
      valid := exBuffer.valid
      small := exBuffer.small
      noConv := by intro h; cases h
      wf := ⟨by simp [exDataC], by simp [exDataC], by rfl⟩
      shape := by simp [exDataC, exAxis, keldyshGrid]
      lead := List.Forall₂.cons (by norm_num) List.Forall₂.nil
      overwritten := rfl
      block := by norm_num
      pos := by norm_num
      internal := by simp
      trailing := List.Forall₂.cons (by norm_num) List.Forall₂.nil
      values := by
        intro k v hk hv
        match k, hk with
        | [k], hk =>
          have hk5 : k < 5 := by
            simp only [InRange, List.map_cons, List.map_nil, List.forall₂_cons] at hk
            exact hk.1
          have hv0 : v = 0 := by omega
          subst hv0
          interval_cases k <;> rfl }
  refine c69_inside_partial hb (by norm_num) rfl 7 ?_ ?_
  · simp only [exAxis, keldyshGrid]; rw [abs_of_nonneg] <;> norm_num
  · simp only [Inside, exAxis, keldyshGrid]; norm_num

end Verif.SelfEnergy
