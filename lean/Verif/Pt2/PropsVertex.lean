import Verif.Pt2.Lines
import Verif.Sde.Cases

/-! C165: the vertex of second order and the number of loops. -/
namespace Verif.Pt2
open Verif.Symmetries Verif.Heredity Verif.Propagator Verif.Invariant Verif.Sde.Limit MeasureTheory
open Verif.Freqs (Ch)

/-! ### The vertex -/

/-- Weight of a pair of propagators between two bare vertices. -/
noncomputable def weight (w : ℝ) (c : Ch) (o1 o2 i1 i2 : Leg) (q : Heredity.Lines) : ℂ :=
  Heredity.term ⟨bareK w⟩ ⟨bareK w⟩ (fun _ _ _ _ _ _ => 1) c o1 o2 i1 i2 0 0 q

theorem term_weight (w : ℝ) (P : Pair) (c : Ch) (o1 o2 i1 i2 : Leg) (y z : ℝ) (q : Heredity.Lines) :
    Heredity.term ⟨bareK w⟩ ⟨bareK w⟩ P c o1 o2 i1 i2 y z q = weight w c o1 o2 i1 i2 q * P q.y0 q.y1 q.y2 q.y3 y z := by
  have e : ∀ A B C : ℂ, A * B * C = A * 1 * C * B := fun A B C => by ring
  cases c <;> simp only [weight, Heredity.term]
  · exact e _ _ _
  · split
    · exact e _ _ _
    · simp
  · exact e _ _ _

theorem energies (c : Ch) (ν : Fin 4 → ℝ) : (Measurable fun x => (Heredity.lineE c ν x).1) ∧ (Measurable fun x => (Heredity.lineE c ν x).2) ∧
    (Integrable fun x => ((1 + ‖(Heredity.lineE c ν x).1‖)⁻¹) ^ 2) ∧ Integrable fun x => ((1 + ‖(Heredity.lineE c ν x).2‖)⁻¹) ^ 2 := by
  have m : ∀ s : ℝ, Integrable fun x : ℝ => ((1 + ‖x - s‖)⁻¹) ^ 2 := fun s => by simpa [sub_eq_add_neg] using shift_two (-s)
  have n : ∀ s : ℝ, Integrable fun x : ℝ => ((1 + ‖-x + s‖)⁻¹) ^ 2 := fun s => by
    have := flip_two s
    simpa [neg_add_eq_sub] using this
  cases c <;> simp only [Heredity.lineE]
  · exact ⟨by fun_prop, by fun_prop, m _, shift_two _⟩
  · exact ⟨by fun_prop, by fun_prop, shift_two _, n _⟩
  · exact ⟨by fun_prop, by fun_prop, m _, shift_two _⟩

variable {p : Par} {U w Λ : ℝ}

/-- C165: every component of the one-loop contribution to the vertex is the derivative of the corresponding component of
the vertex of second order with respect to the flow parameter. -/
theorem c165_vertex (h : 0 < p.Gam + Λ) (half : Bool) (c : Ch) (s : Nat) (α : Fin 4 → Bool) (ν : Fin 4 → ℝ) :
    HasDerivAt (fun l => vertex2 { p with Lam := l } U (bareK w) half c s α ν)
      (bub (bareK w) (bareK w) (dpair { p with Lam := Λ } (bareSE U) 0) half c s α ν) Λ := by
  simp only [vertex2, bub, bubble]
  split
  swap
  · exact hasDerivAt_const _ _
  refine HasDerivAt.const_mul _ ?_
  simp only [ite_self, Heredity.inner, term_weight]
  obtain ⟨m1, m2, i1, i2⟩ := energies c ν
  have D : ∀ q : Heredity.Lines, _ := fun q => pair_deriv (U := U) h m1 m2 i1 i2 q.y0 q.y1 q.y2 q.y3
  have e1 : ∀ l, 0 < p.Gam + l → ∫ x, ∑ q : Heredity.Lines, weight w c ⟨true, α 0, ν 0⟩ ⟨false, α 1, ν 1⟩ ⟨s == 0, α 2, ν 2⟩ ⟨s != 0, α 3, ν 3⟩ q *
      pair { p with Lam := l } (bareSE U) q.y0 q.y1 q.y2 q.y3 (Heredity.lineE c ν x).1 (Heredity.lineE c ν x).2 =
      ∑ q : Heredity.Lines, weight w c ⟨true, α 0, ν 0⟩ ⟨false, α 1, ν 1⟩ ⟨s == 0, α 2, ν 2⟩ ⟨s != 0, α 3, ν 3⟩ q *
        ∫ x, comp (gAt p U l (Heredity.lineE c ν x).1) q.y0 q.y2 * comp (gAt p U l (Heredity.lineE c ν x).2) q.y1 q.y3 := by
    intro l hl
    have ii := fun q : Heredity.Lines => ((D q).1 l hl).const_mul (weight w c ⟨true, α 0, ν 0⟩ ⟨false, α 1, ν 1⟩ ⟨s == 0, α 2, ν 2⟩ ⟨s != 0, α 3, ν 3⟩ q)
    refine (integral_finsetSum _ fun q _ => ii q).trans (Finset.sum_congr rfl fun q _ => ?_)
    exact integral_const_mul _ _
  have e2 : ∫ x, ∑ q : Heredity.Lines, weight w c ⟨true, α 0, ν 0⟩ ⟨false, α 1, ν 1⟩ ⟨s == 0, α 2, ν 2⟩ ⟨s != 0, α 3, ν 3⟩ q *
      dpair { p with Lam := Λ } (bareSE U) 0 q.y0 q.y1 q.y2 q.y3 (Heredity.lineE c ν x).1 (Heredity.lineE c ν x).2 =
      ∑ q : Heredity.Lines, weight w c ⟨true, α 0, ν 0⟩ ⟨false, α 1, ν 1⟩ ⟨s == 0, α 2, ν 2⟩ ⟨s != 0, α 3, ν 3⟩ q *
        ∫ x, (comp (gAt p U Λ (Heredity.lineE c ν x).1) q.y0 q.y2 * comp (sAt p U Λ (Heredity.lineE c ν x).2) q.y1 q.y3 +
          comp (sAt p U Λ (Heredity.lineE c ν x).1) q.y0 q.y2 * comp (gAt p U Λ (Heredity.lineE c ν x).2) q.y1 q.y3) := by
    have ii := fun q : Heredity.Lines => (D q).2.1.const_mul (weight w c ⟨true, α 0, ν 0⟩ ⟨false, α 1, ν 1⟩ ⟨s == 0, α 2, ν 2⟩ ⟨s != 0, α 3, ν 3⟩ q)
    refine (integral_finsetSum _ fun q _ => ii q).trans (Finset.sum_congr rfl fun q _ => ?_)
    exact integral_const_mul _ _
  rw [e2]
  have key := HasDerivAt.fun_sum (u := Finset.univ) (x := Λ) (A := fun (q : Heredity.Lines) l => weight w c ⟨true, α 0, ν 0⟩ ⟨false, α 1, ν 1⟩ ⟨s == 0, α 2, ν 2⟩ ⟨s != 0, α 3, ν 3⟩ q *
        ∫ x, comp (gAt p U l (Heredity.lineE c ν x).1) q.y0 q.y2 * comp (gAt p U l (Heredity.lineE c ν x).2) q.y1 q.y3)
    fun q _ => (D q).2.2.const_mul (weight w c ⟨true, α 0, ν 0⟩ ⟨false, α 1, ν 1⟩ ⟨s == 0, α 2, ν 2⟩ ⟨s != 0, α 3, ν 3⟩ q)
  refine key.congr_of_eventuallyEq ?_
  filter_upwards [Metric.ball_mem_nhds Λ (show 0 < (p.Gam + Λ) / 2 by positivity)] with l hl
  have := near hl
  exact e1 l (by linarith)

/-! ### The number of loops -/

theorem bub_zero_left (R : VF) (P : Pair) : bub 0 R P = 0 := by
  funext h c s α ν
  simp only [bub, bubble]
  split
  · cases h <;> cases c <;> simp [Heredity.inner, Heredity.term, Heredity.legVal]
  · rfl

theorem bub_zero_right (L : VF) (P : Pair) : bub L 0 P = 0 := by
  funext h c s α ν
  simp only [bub, bubble]
  split
  · cases h <;> cases c <;> simp [Heredity.inner, Heredity.term, Heredity.legVal]
  · rfl

theorem loop_zero (Δ : ℝ) (G : ℝ → Keldysh.Prop2 ℂ) : loop Δ 0 G = 0 := by
  refine Prod.ext ?_ ?_ <;> funext v
  · rw [(loop_value Δ 0 G v).1]; simp [loopValue, trace]
  · rw [(loop_value Δ 0 G v).2]; simp [loopValue, trace]

theorem loop_zero_line (Δ : ℝ) (Γ : VF) (G : ℝ → Keldysh.Prop2 ℂ) (h : ∀ v, (G v).gr = 0 ∧ (G v).gk = 0) : loop Δ Γ G = 0 := by
  have z : ∀ v a b, comp (G v) a b = 0 := by
    intro v a b
    cases a <;> cases b <;> simp [comp, h v]
  refine Prod.ext ?_ ?_ <;> funext v
  · rw [(loop_value Δ Γ G v).1]; simp [loopValue, trace, z]
  · rw [(loop_value Δ Γ G v).2]; simp [loopValue, trace, z]

section
variable (o : Open) (Δ : ℝ) (bare : VF) (σ : SF) (V : VF)

theorem corr_zero : (eqs o Δ p U bare σ V).corr 0 = 0 := by
  have h0 : loop Δ (others 0) (lineG p (bareSE U).at) = 0 := by
    have : others 0 = 0 := by funext _ c _ _ _; cases c <;> simp [others]
    rw [this, loop_zero]
  show loop Δ (others 0) (lineG p (bareSE U).at) + loop Δ (full bare V) (Invariant.lineE p σ.at (loop Δ (others 0) (lineG p (bareSE U).at)).at) = 0
  rw [h0, zero_add]
  refine loop_zero_line Δ _ _ fun v => ?_
  simp [Invariant.lineE, katR, katK, SF.at]

theorem halves_zero : halves (0 : VF) 0 = 0 := by funext h; simp [halves]

theorem go_zero (cfg : MfRG.Cfg) : ∀ (k : ℕ) (t : VF), MfRG.Loop.go (eqs o Δ p U bare σ V) cfg k ⟨t, 0, 0, 0, 0⟩ = ⟨t, 0, 0, 0, 0⟩ := by
  intro k t
  have hb : MfRG.Loop.body (eqs o Δ p U bare σ V) ⟨t, 0, 0, 0, 0⟩ = ⟨t, 0, 0, 0, 0⟩ := by
    have hm : mirror (0 : VF) = 0 := rfl
    simp [MfRG.Loop.body, eqs, bub_zero_left, bub_zero_right, halves_zero, hm]
  induction k with
  | zero => rfl
  | succ k ih =>
    simp only [MfRG.Loop.go, hb, ih, ite_self]

theorem pass_vertex (cfg : MfRG.Cfg) (x : SF) : MfRG.vertexPass (eqs o Δ p U bare σ V) cfg x =
    (bub bare bare (dpair p (bareSE U) 0), 0) := by
  have h1 : ∀ x, (eqs o Δ p U bare σ V).one x = bub bare bare (dpair p (bareSE U) 0) := fun _ => rfl
  have hl : ∀ x, (eqs o Δ p U bare σ V).left x = 0 := fun _ => bub_zero_left _ _
  have hr : ∀ x, (eqs o Δ p U bare σ V).right x = 0 := fun _ => bub_zero_right _ _
  have hi : ∀ x, (eqs o Δ p U bare σ V).reorder x = x := fun _ => rfl
  simp only [MfRG.vertexPass, h1, hl, hr, hi, add_zero, go_zero, ite_self]
end

/-- C165: whatever the number of loops, the right-hand side consists of the one-loop contributions: corrections of higher
loop orders vanish, and the self-energy iteration ends after the first pass. The acceleration has to return the evaluation
when there is only one, and the norm of zero has to be zero. -/
theorem c165_loops {o : Open} (ho : ∀ v s, o.accel [(v, s)] [(v, s)] = s) (h0 : o.absS 0 = some 0) (Δ : ℝ) (bare : VF) (σ : SF)
    (V : VF) {cfg : MfRG.Cfg} (hn : 1 ≤ cfg.nloops) (ht : 0 ≤ cfg.seTolAbs) :
    ∃ r, MfRG.rhs (eqs o Δ p U bare σ V) cfg = .ok r ∧ r.sigma = loop Δ (full bare V) (lineS p (bareSE U).at (0 : SF).at) ∧
      r.vertex = bub bare bare (dpair p (bareSE U) 0) ∧ r.counter ≤ 1 := by
  set E := eqs o Δ p U bare σ V with hE
  have hse : E.oneSE = loop Δ (full bare V) (lineS p (bareSE U).at (0 : SF).at) := rfl
  rw [← hse]
  have hv : MfRG.vertexPass E cfg E.oneSE = _ := pass_vertex o Δ bare σ V cfg E.oneSE
  have hc : E.corr 0 = 0 := corr_zero o Δ bare σ V
  have ha : ∀ v s, E.accel [(v, s)] [(v, s)] = s := ho
  have hz : E.absS 0 = some 0 := h0
  set x : MfRG.Iter VF SF := ⟨0, E.oneSE, [], [], 0, some (10 ^ 10), some 1⟩ with hx
  have hp : ((x.pass E cfg).sigma = E.oneSE ∧ (x.pass E cfg).vertex = bub bare bare (dpair p (bareSE U) 0) ∧
      (x.pass E cfg).counter ≤ 1) ∧ (cfg.seCorr = true → (x.pass E cfg).again cfg = false) := by
    simp only [MfRG.Iter.pass, hx, hv, hc, add_zero]
    by_cases h3 : cfg.nloops ≥ 3
    · by_cases hs : cfg.seCorr = true
      · simp only [h3, hs, if_true, List.nil_append, ha, sub_self, hz]
        refine ⟨by simp, fun _ => ?_⟩
        have : MfRG.above (some (0 : ℚ)) cfg.seTolAbs = false := by
          simp only [MfRG.above, gt_iff_lt, decide_eq_false_iff_not, not_lt]
          exact ht
        simp [MfRG.Iter.again, this]
      · simp only [h3, hs, if_true]
        exact ⟨by simp, fun h => by simp at h⟩
    · simp only [h3, if_false]
      refine ⟨by simp, fun _ => ?_⟩
      have : ¬ cfg.nloops > 2 := by omega
      simp [MfRG.Iter.again, this]
  refine ⟨x.pass E cfg, ?_, hp.1⟩
  unfold MfRG.rhs
  rw [if_pos hn]
  split
  · rename_i hs
    show Except.ok (MfRG.Iter.go E cfg (x.pass E cfg)) = _
    rw [MfRG.Iter.go, dif_neg (by rw [hp.2 hs]; simp)]
  · rfl

/-- Non-vacuity: without acceleration, three loops with self-energy iteration. -/
example (U Δ : ℝ) (p : Par) (σ : SF) (V : VF) : ∃ r, MfRG.rhs (eqs ⟨id, fun e _ => (e.getLast?.map (·.2)).getD 0, fun _ => some 0, fun _ _ => some 0, fun _ => some 0,
    fun _ _ => none⟩ Δ p U (bareK (-U / 2)) σ V) ⟨3, true, 10, 0, 0, 0, 0⟩ = .ok r ∧
    r.sigma = loop Δ (full (bareK (-U / 2)) V) (lineS p (bareSE U).at (0 : SF).at) ∧
    r.vertex = bub (bareK (-U / 2)) (bareK (-U / 2)) (dpair p (bareSE U) 0) ∧ r.counter ≤ 1 :=
  c165_loops (fun _ _ => rfl) rfl Δ _ σ V (by decide) (by decide)

end Verif.Pt2
