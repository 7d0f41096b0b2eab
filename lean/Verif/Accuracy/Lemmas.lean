import Verif.Accuracy.Spec
import Mathlib.Analysis.Calculus.MeanValue
import Mathlib.Algebra.BigOperators.Group.Finset.Basic
import Mathlib.Tactic.Linarith
import Mathlib.Tactic.Module
import Mathlib.Tactic.Positivity

namespace Verif.Accuracy
open Verif.ODE

variable {E : Type} [NormedAddCommGroup E] [NormedSpace ℝ E]

/-- What the estimates need of a tableau. -/
structure Fit (T : Tableau) : Prop where
  node : ∀ i < T.stages, ((List.range i).map (T.getA i)).sum = T.getNode i
  low : ∀ i < T.stages, 0 ≤ T.getNode i
  high : ∀ i < T.stages, T.getNode i ≤ 1
  size : ∀ i < T.stages, ((List.range i).map fun j => |T.getA i j|).sum ≤ 7
  pos : 0 < T.stages
  weight : ∀ i < T.stages, 0 ≤ T.bHigh.getD i 0
  one : ((List.range T.stages).map fun i => T.bHigh.getD i 0).sum = 1

theorem fit {T : Tableau} (hT : T ∈ tableaux) : Fit T := by
  simp only [tableaux, List.mem_cons, List.not_mem_nil, or_false] at hT
  rcases hT with rfl | rfl | rfl <;>
    exact ⟨by decide +kernel, by decide +kernel, by decide +kernel, by decide +kernel, by decide, by decide +kernel, by decide +kernel⟩

omit [NormedSpace ℝ E] in
theorem foldl_add (f : ℕ → E) (y : E) (l : List ℕ) : l.foldl (fun s i => s + f i) y = y + (l.map f).sum := by
  induction l generalizing y with
  | nil => simp
  | cons a l ih => simp only [List.foldl_cons, List.map_cons, List.sum_cons, ih, add_assoc]

theorem sum_smul (h : ℝ) (c : ℕ → ℚ) (z : E) (l : List ℕ) : (l.map fun i => (h * (c i : ℝ)) • z).sum = (h * (((l.map c).sum : ℚ) : ℝ)) • z := by
  induction l with
  | nil => simp
  | cons a l ih => simp only [List.map_cons, List.sum_cons, ih, Rat.cast_add]; module

/-- A weighted sum of vectors near `z`. -/
theorem sum_near (h : ℝ) (c : ℕ → ℚ) (x : ℕ → E) (z : E) {d : ℝ} (l : List ℕ) (hx : ∀ i ∈ l, ‖x i - z‖ ≤ d) :
    ‖(l.map fun i => (h * (c i : ℝ)) • x i).sum - (h * (((l.map c).sum : ℚ) : ℝ)) • z‖ ≤ |h| * (((l.map fun i => |c i|).sum : ℚ) : ℝ) * d := by
  rw [← sum_smul]
  induction l with
  | nil => simp
  | cons a l ih =>
    simp only [List.map_cons, List.sum_cons, Rat.cast_add, Rat.cast_abs]
    have i1 := ih fun i hi => hx i (List.mem_cons_of_mem _ hi)
    have i2 := hx a List.mem_cons_self
    have e : (h * (c a : ℝ)) • x a + (l.map fun i => (h * (c i : ℝ)) • x i).sum - ((h * (c a : ℝ)) • z + (l.map fun i => (h * (c i : ℝ)) • z).sum) =
        (h * (c a : ℝ)) • (x a - z) + ((l.map fun i => (h * (c i : ℝ)) • x i).sum - (l.map fun i => (h * (c i : ℝ)) • z).sum) := by module
    rw [e]
    refine (norm_add_le _ _).trans ?_
    rw [norm_smul, Real.norm_eq_abs, abs_mul]
    have := mul_le_mul_of_nonneg_left i2 (show 0 ≤ |h| * |(c a : ℝ)| by positivity)
    nlinarith

variable {I : Set ℝ} {p : FlowParam ℝ} {rhs : E → ℝ → E} {Y D : ℝ → E} {L ρ r ω δ : ℝ}

/-- The flow over a short distance. -/
theorem short (H : Follows I p rhs Y D L ρ r ω δ) {t s : ℝ} (ht : t ∈ I) (hs : s ∈ I) (hd : |s - t| ≤ δ) :
    ‖Y s - Y t - (s - t) • D t‖ ≤ ω * |s - t| := by
  have sub : Set.uIcc t s ⊆ I := H.interval.uIcc_subset ht hs
  have d : ∀ x ∈ Set.uIcc t s, HasDerivWithinAt (fun x => Y x - x • D t) (D x - D t) (Set.uIcc t s) x := fun x hx => by
    have := ((H.flow x (sub hx)).mono sub).sub ((hasDerivWithinAt_id x (Set.uIcc t s)).smul_const (D t))
    simp only [one_smul] at this
    exact this
  have b : ∀ x ∈ Set.uIcc t s, ‖D x - D t‖ ≤ ω := fun x hx => H.slow x (sub hx) t ht ((Set.abs_sub_left_of_mem_uIcc hx).trans (by rwa [abs_sub_comm] at hd ⊢))
  have := (convex_uIcc t s).norm_image_sub_le_of_norm_hasDerivWithin_le d b Set.left_mem_uIcc Set.right_mem_uIcc
  rw [Real.norm_eq_abs] at this
  convert this using 2
  module

theorem stage_eq (T : Tableau) (y : E) (h : ℝ) (k : List E) (i : ℕ) :
    stageState T y h k i = y + ((List.range i).map fun j => (h * (T.getA i j : ℝ)) • k.getD j 0).sum := foldl_add _ _ _

theorem combine_eq (b : List ℚ) (y : E) (h : ℝ) (k : List E) :
    combine b y h k = y + ((List.range k.length).map fun i => (h * (b.getD i 0 : ℝ)) • k.getD i 0).sum := foldl_add _ _ _

/-- The stages of one step. -/
theorem stages_error (H : Follows I p rhs Y D L ρ r ω δ) {T : Tableau} (F : Fit T) (L0 : 0 ≤ L) {y : E} {t h d : ℝ} (ht : t ∈ I) (hh : t + h ∈ I)
    (hd : |h| ≤ δ) (ω0 : 0 ≤ ω) (d0 : 0 ≤ d) (d1 : L * (‖y - Y t‖ + 7 * |h| * d + |h| * ω) + ρ + ω ≤ d) (d2 : ‖y - Y t‖ + 7 * |h| * d + |h| * ω ≤ r)
    (n : ℕ) (k : List E) (hk : ∀ x ∈ k, ‖x - D t‖ ≤ d) (hl : k.length + n ≤ T.stages) :
    (stageLoop T p rhs y t h n k).length = k.length + n ∧ ∀ x ∈ stageLoop T p rhs y t h n k, ‖x - D t‖ ≤ d := by
  induction n generalizing k with
  | zero => exact ⟨rfl, hk⟩
  | succ n ih =>
    set i := k.length with hi
    have il : i < T.stages := by omega
    set s := t + h * (T.getNode i : ℝ) with hs
    have c0 : (0 : ℝ) ≤ (T.getNode i : ℝ) := by exact_mod_cast F.low i il
    have c1 : ((T.getNode i : ℚ) : ℝ) ≤ 1 := by exact_mod_cast F.high i il
    have hst : s - t = h * (T.getNode i : ℝ) := by rw [hs]; ring
    have ha : |s - t| ≤ |h| := by
      rw [hst, abs_mul, abs_of_nonneg c0]
      exact mul_le_of_le_one_right (abs_nonneg h) c1
    have sI : s ∈ I := by
      refine H.interval.uIcc_subset ht hh ?_
      rw [Set.mem_uIcc]
      rcases le_total 0 h with h0 | h0
      · exact Or.inl ⟨by rw [hs]; nlinarith, by rw [hs]; nlinarith⟩
      · exact Or.inr ⟨by rw [hs]; nlinarith, by rw [hs]; nlinarith⟩
    have near : ‖stageState T y h k i - Y s‖ ≤ ‖y - Y t‖ + 7 * |h| * d + |h| * ω := by
      have q := sum_near h (T.getA i) (fun j => k.getD j 0) (D t) (d := d) (List.range i) fun j hj => by
        have := List.mem_range.1 hj
        rw [List.getD_eq_getElem?_getD, List.getElem?_eq_getElem (by omega), Option.getD_some]
        exact hk _ (List.getElem_mem _)
      rw [F.node i il] at q
      have sz : (((List.range i).map fun j => |T.getA i j|).sum : ℚ) ≤ (7 : ℚ) := F.size i il
      have sz' : ((((List.range i).map fun j => |T.getA i j|).sum : ℚ) : ℝ) ≤ 7 := by exact_mod_cast sz
      have q' : |h| * ((((List.range i).map fun j => |T.getA i j|).sum : ℚ) : ℝ) * d ≤ 7 * |h| * d := by
        have := mul_le_mul_of_nonneg_left sz' (abs_nonneg h)
        nlinarith
      have w := short H ht sI (ha.trans hd)
      rw [hst] at w
      have w' : ω * |h * (T.getNode i : ℝ)| ≤ |h| * ω := by
        rw [← hst]; nlinarith
      rw [stage_eq]
      have e : y + ((List.range i).map fun j => (h * (T.getA i j : ℝ)) • k.getD j 0).sum - Y s =
          (y - Y t) + (((List.range i).map fun j => (h * (T.getA i j : ℝ)) • k.getD j 0).sum - (h * (T.getNode i : ℝ)) • D t) -
            (Y s - Y t - (h * (T.getNode i : ℝ)) • D t) := by module
      rw [e]
      refine (norm_sub_le _ _).trans (add_le_add ((norm_add_le _ _).trans (add_le_add le_rfl (q.trans q'))) (w.trans w'))
    have new : ‖p.dlam s • rhs (stageState T y h k i) (p.lam s) - D t‖ ≤ d := by
      have a := H.close s sI _ (near.trans d2)
      have b := H.slow s sI t ht (ha.trans hd)
      have c := norm_add_le (p.dlam s • rhs (stageState T y h k i) (p.lam s) - D s) (D s - D t)
      rw [sub_add_sub_cancel] at c
      have := mul_le_mul_of_nonneg_left near L0
      linarith
    have := ih (k ++ [p.dlam s • rhs (stageState T y h k i) (p.lam s)]) (fun x hx => by
      rcases List.mem_append.1 hx with hx | hx
      · exact hk x hx
      · rw [List.mem_singleton.1 hx]; exact new) (by simp only [List.length_append, List.length_singleton]; omega)
    refine ⟨?_, this.2⟩
    have l := this.1
    simp only [List.length_append, List.length_singleton] at l
    refine (show (stageLoop T p rhs y t h (n + 1) k).length = _ from l).trans (by omega)

/-- One step. -/
theorem step_error (H : Follows I p rhs Y D L ρ r ω δ) {T : Tableau} (F : Fit T) (L0 : 0 ≤ L) {y : E} {t h d : ℝ} (ht : t ∈ I) (hh : t + h ∈ I)
    (hd : |h| ≤ δ) (ω0 : 0 ≤ ω) (d0 : 0 ≤ d) (d1 : L * (‖y - Y t‖ + 7 * |h| * d + |h| * ω) + ρ + ω ≤ d) (d2 : ‖y - Y t‖ + 7 * |h| * d + |h| * ω ≤ r) :
    ‖step T p rhs y t h - Y (t + h)‖ ≤ ‖y - Y t‖ + |h| * (d + ω) := by
  have h0 := abs_nonneg h
  have first : ‖p.dlam t • rhs y (p.lam t) - D t‖ ≤ d := by
    have a : 0 ≤ 7 * |h| * d + |h| * ω := by positivity
    have := H.close t ht y (by linarith)
    have b := mul_nonneg L0 a
    nlinarith
  have := stages_error H F L0 ht hh hd ω0 d0 d1 d2 (T.stages - 1) [p.dlam t • rhs y (p.lam t)] (fun x hx => by rw [List.mem_singleton.1 hx]; exact first)
    (by have := F.pos; simp only [List.length_singleton]; omega)
  obtain ⟨l, hk⟩ := this
  have l' : (slopes T p rhs y (rhs y (p.lam t)) t h).length = T.stages := by
    have := F.pos
    unfold slopes
    rw [l, List.length_singleton]; omega
  have q := sum_near h (fun i => T.bHigh.getD i 0) (fun j => (slopes T p rhs y (rhs y (p.lam t)) t h).getD j 0) (D t) (d := d) (List.range T.stages) fun j hj => by
    have := List.mem_range.1 hj
    rw [List.getD_eq_getElem?_getD, List.getElem?_eq_getElem (by omega), Option.getD_some]
    exact hk _ (List.getElem_mem _)
  have abs1 : ((List.range T.stages).map fun i => |T.bHigh.getD i 0|) = (List.range T.stages).map fun i => T.bHigh.getD i 0 :=
    List.map_congr_left fun i hi => abs_of_nonneg (F.weight i (List.mem_range.1 hi))
  rw [abs1, F.one, Rat.cast_one, mul_one, mul_one] at q
  have w := short H ht hh (by rwa [add_sub_cancel_left])
  rw [add_sub_cancel_left] at w
  have e : step T p rhs y t h - Y (t + h) = (y - Y t) +
      (((List.range T.stages).map fun i => (h * (T.bHigh.getD i 0 : ℝ)) • (slopes T p rhs y (rhs y (p.lam t)) t h).getD i 0).sum - h • D t) -
        (Y (t + h) - Y t - h • D t) := by
    show combine T.bHigh y h (slopes T p rhs y (rhs y (p.lam t)) t h) - Y (t + h) = _
    rw [combine_eq, l']
    module
  rw [e]
  refine (norm_sub_le _ _).trans ((add_le_add ((norm_add_le _ _).trans (add_le_add le_rfl q)) w).trans (le_of_eq (by ring)))

end Verif.Accuracy
