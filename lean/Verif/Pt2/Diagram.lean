import Verif.Pt2.Lines

/-! The self-energy diagram of second order with three different lines. -/
namespace Verif.Pt2
open Verif.Symmetries Verif.Heredity Verif.Propagator Verif.Invariant Verif.Sde.Limit Verif.Sde MeasureTheory
open Verif.Freqs (Ch)

abbrev Line : Type := ℝ → Keldysh.Prop2 ℂ

/-- One term of the diagram: lines with frequencies `vp`, `y` and `y + vp - v`. -/
noncomputable def kern3 (A B C : Line) (w : ℝ) (o i : Bool) (v vp y : ℝ) (k : K6) : ℂ :=
  comp (A vp) k.2.1 k.1 * (comp (B y) k.2.2.1 k.2.2.2.2.1 * comp (C (y + vp - v)) k.2.2.2.1 k.2.2.2.2.2) *
    (beta w o k.2.2.2.2.2 k.2.2.1 k.2.1 * beta w k.2.2.2.2.1 k.1 i k.2.2.2.1)

/-- The diagram. -/
noncomputable def dia3 (A B C : Line) (w : ℝ) (o i : Bool) (v vp y : ℝ) : ℂ := ∑ k : K6, kern3 A B C w o i v vp y k

variable {A B C : Line}

theorem dia3_swap (w : ℝ) (o i : Bool) (v vp y : ℝ) : dia3 A B C w o i v vp y = dia3 B A C w o i v y vp := by
  let e : K6 ≃ K6 := ⟨fun k => (k.2.2.2.2.1, k.2.2.1, k.2.1, k.2.2.2.1, k.1, k.2.2.2.2.2),
    fun k => (k.2.2.2.2.1, k.2.2.1, k.2.1, k.2.2.2.1, k.1, k.2.2.2.2.2), fun _ => rfl, fun _ => rfl⟩
  unfold dia3
  rw [← e.sum_comp (kern3 B A C w o i v y vp)]
  refine Finset.sum_congr rfl fun k _ => ?_
  simp only [kern3, e, Equiv.coe_fn_mk]
  rw [show vp + y - v = y + vp - v by ring, (beta_perm w o k.2.2.2.2.2 k.2.2.1 k.2.1).2, (beta_perm w k.2.2.2.2.1 k.1 i k.2.2.2.1).1]
  ring

theorem kern3_meas (hA : Decays A) (hB : Decays B) (hC : Decays C) (w : ℝ) (o i : Bool) (v : ℝ) (k : K6) :
    Measurable fun p : ℝ × ℝ => kern3 A B C w o i v p.1 p.2 k := by
  have hz : Measurable fun p : ℝ × ℝ => p.2 + p.1 - v := by fun_prop
  exact (((comp_meas hA _ _).comp measurable_fst).mul (((comp_meas hB _ _).comp measurable_snd).mul
    ((comp_meas hC _ _).comp hz))).mul_const _

theorem kern3_bound {M : ℝ} (hM : 0 ≤ M) (hA : ∀ a b x, ‖comp (A x) a b‖ ≤ M * (1 + ‖x‖)⁻¹) (hB : ∀ a b x, ‖comp (B x) a b‖ ≤ M * (1 + ‖x‖)⁻¹)
    (hC : ∀ a b x, ‖comp (C x) a b‖ ≤ M * (1 + ‖x‖)⁻¹) (w : ℝ) (o i : Bool) (v vp y : ℝ) (k : K6) :
    ‖kern3 A B C w o i v vp y k‖ ≤ M * M * M * (|w| * |w|) * ((1 + ‖vp‖)⁻¹ * (1 + ‖y‖)⁻¹ * (1 + ‖y + vp - v‖)⁻¹) := by
  simp only [kern3, norm_mul]
  calc _ ≤ (M * (1 + ‖vp‖)⁻¹) * ((M * (1 + ‖y‖)⁻¹) * (M * (1 + ‖y + vp - v‖)⁻¹)) * (|w| * |w|) := by
        gcongr
        · exact hA _ _ _
        · exact hB _ _ _
        · exact hC _ _ _
        · exact beta_bound ..
        · exact beta_bound ..
    _ = _ := by ring

theorem common (hA : Decays A) (hB : Decays B) (hC : Decays C) : ∃ M : ℝ, 0 ≤ M ∧ (∀ a b x, ‖comp (A x) a b‖ ≤ M * (1 + ‖x‖)⁻¹) ∧
    (∀ a b x, ‖comp (B x) a b‖ ≤ M * (1 + ‖x‖)⁻¹) ∧ ∀ a b x, ‖comp (C x) a b‖ ≤ M * (1 + ‖x‖)⁻¹ := by
  obtain ⟨a, ha, hA⟩ := comp_bound hA
  obtain ⟨b, hb, hB⟩ := comp_bound hB
  obtain ⟨c, hc, hC⟩ := comp_bound hC
  refine ⟨a + b + c, by positivity, fun k l x => (hA k l x).trans ?_, fun k l x => (hB k l x).trans ?_, fun k l x => (hC k l x).trans ?_⟩
  all_goals exact mul_le_mul_of_nonneg_right (by linarith) (by positivity)

theorem kern3_int (hA : Decays A) (hB : Decays B) (hC : Decays C) (w : ℝ) (o i : Bool) (v : ℝ) (k : K6) :
    Integrable fun p : ℝ × ℝ => kern3 A B C w o i v p.1 p.2 k := by
  obtain ⟨M, hM, a, b, c⟩ := common hA hB hC
  exact ((prod_int v).const_mul _).mono' (kern3_meas hA hB hC w o i v k).aestronglyMeasurable
    (Filter.Eventually.of_forall fun p => kern3_bound hM a b c w o i v p.1 p.2 k)

theorem dia3_int (hA : Decays A) (hB : Decays B) (hC : Decays C) (w : ℝ) (o i : Bool) (v : ℝ) :
    Integrable fun p : ℝ × ℝ => dia3 A B C w o i v p.1 p.2 := integrable_finsetSum _ fun k _ => kern3_int hA hB hC w o i v k

/-- The integrated diagram. -/
noncomputable def tot (A B C : Line) (w : ℝ) (o i : Bool) (v : ℝ) : ℂ := ∫ p : ℝ × ℝ, dia3 A B C w o i v p.1 p.2

theorem tot_swap (w : ℝ) (o i : Bool) (v : ℝ) : tot A B C w o i v = tot B A C w o i v := by
  unfold tot
  refine Eq.trans ?_ (integral_prod_swap (μ := (volume : Measure ℝ)) (ν := (volume : Measure ℝ)) fun p : ℝ × ℝ => dia3 B A C w o i v p.1 p.2)
  refine integral_congr_ae (Filter.Eventually.of_forall fun p => ?_)
  exact dia3_swap w o i v p.1 p.2

theorem dia3_shear (hA : Decays A) (hB : Decays B) (hC : Decays C) (w : ℝ) (o i : Bool) (v : ℝ) :
    Integrable (fun p : ℝ × ℝ => dia3 A B C w o i v (v + p.1 - p.2) p.2) ∧
    ∫ p : ℝ × ℝ, dia3 A B C w o i v (v + p.1 - p.2) p.2 = tot A B C w o i v := by
  have T1 := measurePreserving_sub_prod (volume : Measure ℝ) (volume : Measure ℝ)
  have T2 : MeasurePreserving (fun p : ℝ × ℝ => (v + p.1, p.2)) :=
    (measurePreserving_add_left (volume : Measure ℝ) v).prod (MeasurePreserving.id (volume : Measure ℝ))
  have T := T2.comp T1
  have hI := dia3_int hA hB hC w o i v
  have e : (fun p : ℝ × ℝ => dia3 A B C w o i v (v + p.1 - p.2) p.2) = (fun p : ℝ × ℝ => dia3 A B C w o i v p.1 p.2) ∘
      ((fun p : ℝ × ℝ => (v + p.1, p.2)) ∘ fun z : ℝ × ℝ => (z.1 - z.2, z.2)) := by
    funext p
    simp only [Function.comp, add_sub_assoc]
  rw [e]
  refine ⟨(T.integrable_comp hI.aestronglyMeasurable).2 hI, ?_⟩
  have key := integral_map (f := fun p : ℝ × ℝ => dia3 A B C w o i v p.1 p.2) T.measurable.aemeasurable
    (by rw [T.map_eq]; exact hI.aestronglyMeasurable)
  rw [T.map_eq] at key
  exact key.symm

/-! ### Derivative -/

variable {p : Par} {U : ℝ}

theorem kern3_deriv {Λ : ℝ} (h : 0 < p.Gam + Λ) (w : ℝ) (o i : Bool) (v vp y : ℝ) (k : K6) :
    HasDerivAt (fun l => kern3 (gAt p U l) (gAt p U l) (gAt p U l) w o i v vp y k)
      (kern3 (sAt p U Λ) (gAt p U Λ) (gAt p U Λ) w o i v vp y k + kern3 (gAt p U Λ) (sAt p U Λ) (gAt p U Λ) w o i v vp y k +
        kern3 (gAt p U Λ) (gAt p U Λ) (sAt p U Λ) w o i v vp y k) Λ := by
  have a := comp_deriv (U := U) h vp k.2.1 k.1
  have b := comp_deriv (U := U) h y k.2.2.1 k.2.2.2.2.1
  have c := comp_deriv (U := U) h (y + vp - v) k.2.2.2.1 k.2.2.2.2.2
  refine ((a.mul (b.mul c)).mul_const _).congr_deriv ?_
  simp only [kern3, Pi.mul_apply]
  ring

theorem tot_deriv {Λ : ℝ} (h : 0 < p.Gam + Λ) (w : ℝ) (o i : Bool) (v : ℝ) :
    HasDerivAt (fun l => tot (gAt p U l) (gAt p U l) (gAt p U l) w o i v)
      (2 * tot (sAt p U Λ) (gAt p U Λ) (gAt p U Λ) w o i v + tot (gAt p U Λ) (gAt p U Λ) (sAt p U Λ) w o i v) Λ := by
  have h4 : 0 < (p.Gam + Λ) / 4 := by positivity
  have hg := gAt_decays (U := U) h
  have hs := sAt_decays (U := U) h
  have key := fun k : K6 => hasDerivAt_integral_of_dominated_loc_of_deriv_le (μ := (volume : Measure (ℝ × ℝ))) (𝕜 := ℝ)
    (F := fun l q => kern3 (gAt p U l) (gAt p U l) (gAt p U l) w o i v q.1 q.2 k)
    (F' := fun l q => kern3 (sAt p U l) (gAt p U l) (gAt p U l) w o i v q.1 q.2 k + kern3 (gAt p U l) (sAt p U l) (gAt p U l) w o i v q.1 q.2 k +
        kern3 (gAt p U l) (gAt p U l) (sAt p U l) w o i v q.1 q.2 k)
    (bound := fun q => 3 * ((bnd p U ((p.Gam + Λ) / 4) * bnd p U ((p.Gam + Λ) / 4) * bnd p U ((p.Gam + Λ) / 4) * (|w| * |w|)) *
      ((1 + ‖q.1‖)⁻¹ * (1 + ‖q.2‖)⁻¹ * (1 + ‖q.2 + q.1 - v‖)⁻¹)))
    (x₀ := Λ) (s := Metric.ball Λ ((p.Gam + Λ) / 2)) (Metric.ball_mem_nhds Λ (by positivity))
    (by
      filter_upwards [Metric.ball_mem_nhds Λ (show 0 < (p.Gam + Λ) / 2 by positivity)] with l hl
      have := near hl
      have hl' := gAt_decays (p := p) (U := U) (l := l) (by linarith)
      exact (kern3_int hl' hl' hl' w o i v k).aestronglyMeasurable)
    (kern3_int hg hg hg w o i v k)
    (((kern3_int hs hg hg w o i v k).add (kern3_int hg hs hg w o i v k)).add (kern3_int hg hg hs w o i v k)).aestronglyMeasurable
    (Filter.Eventually.of_forall fun q l hl => by
      have n := near hl
      have bg : ∀ a b x, _ := fun a b x => (lines_bound (p := p) (U := U) h4 n x a b).1
      have bs : ∀ a b x, _ := fun a b x => (lines_bound (p := p) (U := U) h4 n x a b).2
      have b0 := bnd_nonneg (p := p) (U := U) h4
      have b1 := kern3_bound b0 bs bg bg w o i v q.1 q.2 k
      have b2 := kern3_bound b0 bg bs bg w o i v q.1 q.2 k
      have b3 := kern3_bound b0 bg bg bs w o i v q.1 q.2 k
      refine (norm_add_le _ _).trans ((add_le_add ((norm_add_le _ _).trans (add_le_add b1 b2)) b3).trans (le_of_eq ?_))
      ring)
    (((prod_int v).const_mul _).const_mul 3)
    (Filter.Eventually.of_forall fun q l hl => by
      have n := near hl
      exact kern3_deriv (by linarith) w o i v q.1 q.2 k)
  have e : ∀ l, 0 < p.Gam + l → tot (gAt p U l) (gAt p U l) (gAt p U l) w o i v =
      ∑ k : K6, ∫ q : ℝ × ℝ, kern3 (gAt p U l) (gAt p U l) (gAt p U l) w o i v q.1 q.2 k := fun l hl =>
    integral_finsetSum _ fun k _ => kern3_int (gAt_decays hl) (gAt_decays hl) (gAt_decays hl) w o i v k
  have s := HasDerivAt.fun_sum (u := Finset.univ) (x := Λ) (A := fun (k : K6) l => ∫ q : ℝ × ℝ,
    kern3 (gAt p U l) (gAt p U l) (gAt p U l) w o i v q.1 q.2 k) fun k _ => (key k).2
  have s' := s.congr_of_eventuallyEq (f₁ := fun l => tot (gAt p U l) (gAt p U l) (gAt p U l) w o i v) (by
    filter_upwards [Metric.ball_mem_nhds Λ (show 0 < (p.Gam + Λ) / 2 by positivity)] with l hl
    have := near hl
    exact e l (by linarith))
  refine s'.congr_deriv ?_
  have f : ∀ {A B C : Line}, Decays A → Decays B → Decays C → tot A B C w o i v =
      ∑ k : K6, ∫ q : ℝ × ℝ, kern3 A B C w o i v q.1 q.2 k := fun a b c =>
    integral_finsetSum _ fun k _ => kern3_int a b c w o i v k
  have sw := tot_swap (A := gAt p U Λ) (B := sAt p U Λ) (C := gAt p U Λ) w o i v
  rw [two_mul]
  nth_rw 2 [← sw]
  rw [f hs hg hg, f hg hs hg, f hg hg hs, ← Finset.sum_add_distrib, ← Finset.sum_add_distrib]
  refine Finset.sum_congr rfl fun k _ => ?_
  have i1 := kern3_int hs hg hg w o i v k
  have i2 := kern3_int hg hs hg w o i v k
  have i3 := kern3_int hg hg hs w o i v k
  rw [← integral_add i1 i2]
  exact integral_add (i1.add i2) i3

end Verif.Pt2
