import Verif.Thermal.Bubble

/-! Combinations of vertices, propagators, and the closed vertex. -/
namespace Verif.Thermal
open Verif.Fdt Verif.Heredity Verif.Symmetries Verif.Invariant Verif.Sde.Limit MeasureTheory
open Verif.Freqs (Ch)

/-! ### Combinations -/

section
variable {T mu : ℝ} {V W : VF}

theorem Equilibrium.zero : Equilibrium T mu 0 := fun _ _ _ _ _ _ => Kms.zero

theorem Equilibrium.add (hV : Equilibrium T mu V) (hW : Equilibrium T mu W) : Equilibrium T mu (V + W) :=
  fun h c s hs ν hν => (hV h c s hs ν hν).add (hW h c s hs ν hν)

theorem Equilibrium.smul (r : ℝ) (hV : Equilibrium T mu V) : Equilibrium T mu (r • V) :=
  fun h c s hs ν hν => (hV h c s hs ν hν).real r

theorem Equilibrium.sub (hV : Equilibrium T mu V) (hW : Equilibrium T mu W) : Equilibrium T mu (V - W) := by
  rw [sub_eq_add_neg, ← neg_one_smul ℝ W]
  exact hV.add (hW.smul (-1))

theorem Equilibrium.mirror (hV : Equilibrium T mu V) : Equilibrium T mu (mirror V) := fun h => hV (!h)

theorem Equilibrium.halves (hV : Equilibrium T mu V) (hW : Equilibrium T mu W) : Equilibrium T mu (halves V W) := by
  intro h
  cases h
  · exact hV false
  · exact hW false

theorem Equilibrium.full (hV : Equilibrium T mu V) (hW : Equilibrium T mu W) : Equilibrium T mu (full V W) :=
  fun _ c s hs ν hν => (hV false c s hs ν hν).add
    (((hW false .a s hs ν hν).add (hW false .p s hs ν hν)).add (hW false .t s hs ν hν))

theorem Equilibrium.others (hV : Equilibrium T mu V) : Equilibrium T mu (others V) := by
  intro _ c s hs ν hν
  cases c with
  | a => exact (hV false .p s hs ν hν).add (hV false .t s hs ν hν)
  | p => exact (hV false .a s hs ν hν).add (hV false .t s hs ν hν)
  | t => exact (hV false .a s hs ν hν).add (hV false .p s hs ν hν)

theorem tame_zero : TameV 0 := fun _ _ _ _ => ⟨fun _ => measurable_const, 0, fun _ _ => by simp⟩

theorem TameV.add (hV : TameV V) (hW : TameV W) : TameV (V + W) := fun h c s hs => (hV h c s hs).add (hW h c s hs)

theorem TameV.smul (r : ℝ) (hV : TameV V) : TameV (r • V) := fun h c s hs => by
  obtain ⟨B, hB⟩ := (hV h c s hs).bound
  refine ⟨fun α => ((hV h c s hs).meas α).const_mul (r : ℂ), |r| * B, fun α ν => ?_⟩
  show ‖(r : ℂ) * V h c s α ν‖ ≤ _
  rw [norm_mul, Complex.norm_real, Real.norm_eq_abs]
  exact mul_le_mul_of_nonneg_left (hB α ν) (abs_nonneg r)

theorem TameV.sub (hV : TameV V) (hW : TameV W) : TameV (V - W) := by
  rw [sub_eq_add_neg, ← neg_one_smul ℝ W]
  exact TameV.add hV (TameV.smul (-1) hW)

theorem TameV.mirror (hV : TameV V) : TameV (mirror V) := fun h => hV (!h)

theorem TameV.halves (hV : TameV V) (hW : TameV W) : TameV (halves V W) := by
  intro h
  cases h
  · exact hV false
  · exact hW false

theorem TameV.full (hV : TameV V) (hW : TameV W) : TameV (full V W) := fun _ c s hs =>
  (hV false c s hs).add (((hW false .a s hs).add (hW false .p s hs)).add (hW false .t s hs))

theorem TameV.others (hV : TameV V) : TameV (others V) := by
  intro _ c s hs
  cases c with
  | a => exact (hV false .p s hs).add (hV false .t s hs)
  | p => exact (hV false .a s hs).add (hV false .t s hs)
  | t => exact (hV false .a s hs).add (hV false .p s hs)

/-- On the contour the bare vertex joins legs on the same branch. -/
theorem rot_beta (w : ℝ) (b : K4) : rot (fun k => beta w k.1 k.2.1 k.2.2.1 k.2.2.2) b =
    if b = (false, false, false, false) then (2 * w : ℂ) else if b = (true, true, true, true) then -2 * w else 0 := by
  obtain ⟨b1, b2, b3, b4⟩ := b
  cases b1 <;> cases b2 <;> cases b3 <;> cases b4 <;>
    simp [rot, Fintype.sum_prod_type, kern, tn, Fdt.turn, beta, Symmetries.twos] <;> ring

theorem kms_beta (T w : ℝ) {x : Fin 4 → ℝ} (hx : x 0 + x 1 + x 2 + x 3 = 0) :
    Kms (-1) T x (fun k => beta w k.1 k.2.1 k.2.2.1 k.2.2.2) := by
  intro b
  rw [rot_beta, rot_beta]
  have e : weight T (x 0) true * weight T (x 1) true * weight T (x 2) true * weight T (x 3) true = 1 := by
    simp only [weight, if_true]
    rw [show ∀ a b c d : ℂ, -a * -b * -c * -d = a * b * c * d from fun a b c d => by ring, ← Complex.ofReal_mul, ← Complex.ofReal_mul, ← Complex.ofReal_mul, ← Real.exp_add, ← Real.exp_add,
      ← Real.exp_add, ← add_div, ← add_div, ← add_div, hx]
    simp
  obtain ⟨b1, b2, b3, b4⟩ := b
  cases b1 <;> cases b2 <;> cases b3 <;> cases b4 <;> simp only [flip, Bool.not_true, Bool.not_false, Prod.mk.injEq, reduceCtorEq,
    and_false, and_true, and_self, if_false, if_true, star_zero, mul_zero]
  · simp [wt, weight, Complex.conj_ofReal]
  · simp only [wt, e]
    simp [Complex.conj_ofReal]

/-- The bare vertex is in equilibrium at every temperature. -/
theorem bare_equilibrium (T mu w : ℝ) : Equilibrium T mu (bareK w) := by
  intro h c s _ ν hν
  have hx : rel mu ν 0 + rel mu ν 1 + rel mu ν 2 + rel mu ν 3 = 0 := by
    simp only [rel, Matrix.cons_val_zero, Matrix.cons_val_one, Matrix.cons_val]; linarith
  have h1 := kms_beta T w hx
  by_cases hs : s = 0
  · have e : comps (bareK w) h c s ν = fun k => beta w k.1 k.2.1 k.2.2.1 k.2.2.2 := by funext k; exact if_pos hs
    rw [e]; exact h1
  · have e : comps (bareK w) h c s ν = fun k => ((-1 : ℝ) : ℂ) * beta w k.1 k.2.1 k.2.2.1 k.2.2.2 := by
      funext k
      refine (if_neg hs).trans ?_
      push_cast; simp
    rw [e]; exact h1.real (-1)
end

/-! ### Propagators -/

section
open Verif.Propagator

theorem thermal_G (p : Par) (σ : ℝ → SE) : ThermalG p.T p.mu (lineG p σ) := by
  intro v
  have e : (lineG p σ v).gk = Complex.I * ((Real.tanh ((v - p.mu) / (2 * p.T)) * 2 * ((lineG p σ v).gr).im : ℝ) : ℂ) := rfl
  rw [e, Complex.star_def, Complex.sub_conj]
  push_cast; ring

theorem thermal_E (p : Par) (σ : ℝ → SE) {dσ : SF} (h : ThermalS p.T p.mu dσ) : ThermalG p.T p.mu (Invariant.lineE p σ dσ.at) := by
  intro v
  have e1 : (Invariant.lineE p σ dσ.at v).gr = (lineG p σ v).gr * dσ.1 v * (lineG p σ v).gr := rfl
  have e2 : (Invariant.lineE p σ dσ.at v).gk = (lineG p σ v).gr * dσ.1 v * (lineG p σ v).gk + (lineG p σ v).gr * dσ.2 v * (starRingEnd ℂ) (lineG p σ v).gr
    + (lineG p σ v).gk * (starRingEnd ℂ) (dσ.1 v) * (starRingEnd ℂ) (lineG p σ v).gr := rfl
  rw [e1, e2, h v, thermal_G p σ v]
  simp only [star_mul', Complex.star_def]
  ring

theorem thermal_S (p : Par) (σ : ℝ → SE) {dσ : SF} (h : ThermalS p.T p.mu dσ) : ThermalG p.T p.mu (lineS p σ dσ.at) := by
  intro v
  have k := thermal_E p σ h v
  have e1 : (lineS p σ dσ.at v).gr = sR .hyb { p with v := v } (σ v) + (Invariant.lineE p σ dσ.at v).gr := rfl
  have e2 : (lineS p σ dσ.at v).gk = Complex.I * ((Real.tanh ((v - p.mu) / (2 * p.T)) * 2 * (sR .hyb { p with v := v } (σ v)).im : ℝ) : ℂ) +
    (Invariant.lineE p σ dσ.at v).gk := rfl
  rw [e1, e2, k]
  have := Complex.sub_conj (sR .hyb { p with v := v } (σ v))
  simp only [star_add, Complex.star_def]
  push_cast at *
  linear_combination (-(Complex.tanh ((v - p.mu) / (2 * p.T)))) * this

theorem tanh_meas (mu T : ℝ) : Measurable fun v : ℝ => ((Real.tanh ((v - mu) / (2 * T)) : ℝ) : ℂ) := by
  have : (fun v : ℝ => Real.tanh ((v - mu) / (2 * T))) = fun v => Real.sinh ((v - mu) / (2 * T)) / Real.cosh ((v - mu) / (2 * T)) := by
    funext v; exact Real.tanh_eq_sinh_div_cosh _
  refine Complex.measurable_ofReal.comp ?_
  rw [this]
  exact (Real.measurable_sinh.comp (by fun_prop)).div (Real.measurable_cosh.comp (by fun_prop))

/-- In equilibrium the Keldysh component decays with the retarded one. -/
theorem decays_thermal {T mu : ℝ} {G : ℝ → Keldysh.Prop2 ℂ} (hG : ThermalG T mu G) (hm : Measurable fun x => (G x).gr) {C : ℝ}
    (hC : ∀ x, ‖(G x).gr‖ ≤ C / (1 + |x|)) : Decays G := by
  refine ⟨hm, ?_, 2 * C, fun x => ?_⟩
  · have e : (fun x => (G x).gk) = fun v => ((Real.tanh ((v - mu) / (2 * T)) : ℝ) : ℂ) * ((G v).gr - star (G v).gr) := funext hG
    rw [e]
    exact (tanh_meas mu T).mul (hm.sub (continuous_star.measurable.comp hm))
  · have h0 := (norm_nonneg _).trans (hC x)
    have h2 : 2 * C / (1 + |x|) = C / (1 + |x|) + C / (1 + |x|) := by ring
    have ht : |Real.tanh ((x - mu) / (2 * T))| ≤ 1 := (Real.abs_tanh_lt_one _).le
    rw [h2]
    refine ⟨(hC x).trans (by linarith), ?_⟩
    rw [hG x, norm_mul, Complex.norm_real, Real.norm_eq_abs]
    have h3 : ‖(G x).gr - star (G x).gr‖ ≤ C / (1 + |x|) + C / (1 + |x|) :=
      (norm_sub_le _ _).trans (add_le_add (hC x) ((norm_star _).trans_le (hC x)))
    calc _ ≤ 1 * ‖(G x).gr - star (G x).gr‖ := mul_le_mul_of_nonneg_right ht (norm_nonneg _)
      _ ≤ _ := by rw [one_mul]; exact h3

theorem decays_E {p : Par} {σ : SF} (hG : Decays (lineG p σ.at)) {dσ : SF} (h : ReadyS p.T p.mu dσ) :
    Decays (Invariant.lineE p σ.at dσ.at) := by
  obtain ⟨C, hC⟩ := hG.bound
  obtain ⟨D, hD⟩ := h.bound
  have e1 : ∀ v, (Invariant.lineE p σ.at dσ.at v).gr = (lineG p σ.at v).gr * dσ.1 v * (lineG p σ.at v).gr := fun _ => rfl
  refine decays_thermal (thermal_E p σ.at h.thermal) ?_ (C := C * D * C) fun x => ?_
  · simp only [e1]
    exact (hG.measR.mul h.meas).mul hG.measR
  · have a := (hC x).1
    have h0 : 0 ≤ C := by
      have := (norm_nonneg _).trans (hC 0).1
      simpa using this
    have h1 : C / (1 + |x|) ≤ C := div_le_self h0 (by linarith [abs_nonneg x])
    have h2 : 0 ≤ D := (norm_nonneg _).trans (hD x)
    rw [e1, norm_mul, norm_mul]
    calc _ ≤ C * D * (C / (1 + |x|)) := by
          have := hD x
          have := a.trans h1
          gcongr
      _ = _ := by ring

theorem decays_S {p : Par} {σ : SF} (hG : Decays (lineG p σ.at)) {dσ : SF} (h : ReadyS p.T p.mu dσ) :
    Decays (lineS p σ.at dσ.at) := by
  have hE := decays_E hG h
  obtain ⟨C, hC⟩ := hG.bound
  obtain ⟨D, hD⟩ := hE.bound
  have e1 : ∀ v, (lineS p σ.at dσ.at v).gr = -0.5 * Complex.I * (lineG p σ.at v).gr * (lineG p σ.at v).gr + (Invariant.lineE p σ.at dσ.at v).gr :=
    fun _ => rfl
  refine decays_thermal (thermal_S p σ.at h.thermal) ?_ (C := C * C + D) fun x => ?_
  · simp only [e1]
    exact ((hG.measR.const_mul _).mul hG.measR).add hE.measR
  · have a := (hC x).1
    have h0 : 0 ≤ C := by
      have := (norm_nonneg _).trans (hC 0).1
      simpa using this
    have h1 : C / (1 + |x|) ≤ C := div_le_self h0 (by linarith [abs_nonneg x])
    rw [e1]
    refine (norm_add_le _ _).trans ?_
    rw [add_div]
    refine add_le_add ?_ (hD x).1
    rw [norm_mul, norm_mul]
    have n : ‖(-0.5 : ℂ) * Complex.I‖ ≤ 1 := by rw [norm_mul, Complex.norm_I]; norm_num
    calc _ ≤ 1 * C * (C / (1 + |x|)) := by
          have := a.trans h1
          gcongr
      _ = _ := by ring

theorem ready_zero (T mu : ℝ) : ReadyS T mu 0 := ⟨fun _ => by simp, measurable_const, 0, fun _ => by simp⟩
end



/-! ### The self-energy -/

theorem rot2_trace (F : K4 → ℂ) (M : Bool → Bool → ℂ) (o i : Bool) :
    rot2 (fun o i => ∑ b : Bool, ∑ d : Bool, M d b * F (o, b, i, d)) o i =
      ∑ b : Bool, ∑ d : Bool, rot2 M d b * rot F (o, b, i, d) := by
  cases o <;> cases i <;>
  · simp [rot2, rot, kern, tn, Fdt.turn, Fintype.sum_prod_type]
    ring

/-- The relation between the components of a self-energy before multiplication with the imaginary prefactor. -/
theorem two_rel {T x : ℝ} {S : Bool → Bool → ℂ}
    (h : ∀ o i, star (rot2 S o i) = weight T x o * weight T (-x) i * rot2 S (!o) (!i)) :
    S false false - star (S true true) = -((Real.tanh (x / (2 * T)) : ℝ) : ℂ) * (star (S true false) + S true false) := by
  have h1 := h false false
  have h2 := h false true
  have ht := tanh_exp x T
  set t := Real.tanh (x / (2 * T)) with htd
  set E' := Real.exp (-x / T) with hE'
  have hE : E' * Real.exp (x / T) = 1 := by rw [hE', ← Real.exp_add, ← add_div]; simp
  have hp : 0 < E' := Real.exp_pos _
  have ht' : t * (1 + E') = 1 - E' := by linear_combination -(E' * ht) + (1 - t) * hE
  have w1 : weight T x false = 1 := rfl
  have w2 : weight T (-x) false = 1 := rfl
  have w3 : weight T (-x) true = -(E' : ℂ) := rfl
  rw [w1, w2] at h1
  rw [w1, w3] at h2
  clear_value E' t
  generalize hc : S false false = a at *
  simp only [rot2, Fintype.sum_prod_type, Fintype.sum_bool, tn, Fdt.turn, Bool.toNat_true, Bool.toNat_false, hc, Bool.not_false, Bool.not_true] at h1 h2
  generalize S false true = b at *
  generalize S true false = c at *
  generalize S true true = d at *
  have r1 := congrArg Complex.re h1
  have i1 := congrArg Complex.im h1
  have r2 := congrArg Complex.re h2
  simp at r1 i1 r2
  have hb : b.re = -c.re := by linarith
  apply Complex.ext
  · simp
    have hne : (1 + E') ≠ 0 := by positivity
    apply mul_right_cancel₀ hne
    rw [hb] at r2
    linear_combination (-2) * r2 + 2 * c.re * ht'
  · simp
    linarith

/-- The closed vertex in equilibrium. -/
theorem trace_rel {T mu : ℝ} {Γ : VF} (hΓ : Equilibrium T mu Γ) {G : ℝ → Keldysh.Prop2 ℂ} (hG : ThermalG T mu G) (v vp : ℝ) :
    trace Γ (G vp) false false v vp - star (trace Γ (G vp) true true v vp) =
      -((Real.tanh ((v - mu) / (2 * T)) : ℝ) : ℂ) * (star (trace Γ (G vp) true false v vp) + trace Γ (G vp) true false v vp) := by
  set F : K4 → ℂ := fun k => 2 * comps Γ false .t 0 ![v, vp, v, vp] k + comps Γ false .t 1 ![v, vp, v, vp] k with hF
  have kF : Kms (-1) T (rel mu ![v, vp, v, vp]) F := by
    have := ((hΓ false .t 0 (by omega) ![v, vp, v, vp] rfl).real 2).add (hΓ false .t 1 (by omega) ![v, vp, v, vp] rfl)
    rw [hF]
    simpa using this
  have e : (fun o i => trace Γ (G vp) o i v vp) = fun o i => ∑ b : Bool, ∑ d : Bool, comp (G vp) d b * F (o, b, i, d) := rfl
  refine two_rel (S := fun o i => trace Γ (G vp) o i v vp) (T := T) (x := v - mu) fun o i => ?_
  have hy := weight_inv T (vp - mu)
  rw [neg_sub] at hy
  rw [e, rot2_trace, rot2_trace, star_sum, Finset.mul_sum, neg_sub]
  refine Fintype.sum_equiv ⟨(!·), (!·), fun b => by simp, fun b => by simp⟩ _ _ fun b => ?_
  rw [star_sum, Finset.mul_sum]
  refine Fintype.sum_equiv ⟨(!·), (!·), fun b => by simp, fun b => by simp⟩ _ _ fun d => ?_
  show _ = weight T (v - mu) o * weight T (mu - v) i * (rot2 (comp (G vp)) (!d) (!b) * rot F (flip (o, b, i, d)))
  rw [star_mul', kms_line hG, kF]
  have hr : wt T (rel mu ![v, vp, v, vp]) (o, b, i, d) =
      weight T (v - mu) o * weight T (vp - mu) b * weight T (mu - v) i * weight T (mu - vp) d := rfl
  rw [hr]
  linear_combination (weight T (v - mu) o * weight T (mu - v) i * (rot2 (comp (G vp)) (!d) (!b) * rot F (flip (o, b, i, d)))) *
    (weight T (vp - mu) b * weight T (mu - vp) b * hy d + hy b)

theorem trace_meas {Γ : VF} (hΓ : TameV Γ) {G : ℝ → Keldysh.Prop2 ℂ} (hG : Decays G) (o i : Bool) (v : ℝ) :
    (Measurable fun vp => trace Γ (G vp) o i v vp) ∧ ∃ B, ∀ vp, ‖trace Γ (G vp) o i v vp‖ ≤ B := by
  have ml := meas_legs (fun _ => v) (fun x => x) (fun _ => v) (fun x => x) measurable_const measurable_id measurable_const measurable_id
  obtain ⟨B0, hB0⟩ := (hΓ false .t 0 (by omega)).bound
  obtain ⟨B1, hB1⟩ := (hΓ false .t 1 (by omega)).bound
  obtain ⟨C, hC0, hC⟩ := comp_bound hG
  constructor
  · exact Finset.measurable_sum _ fun b _ => Finset.measurable_sum _ fun d _ => (comp_meas hG d b).mul
      (((((hΓ false .t 0 (by omega)).meas ![o, b, i, d]).comp ml).const_mul 2).add (((hΓ false .t 1 (by omega)).meas ![o, b, i, d]).comp ml))
  · refine ⟨∑ b : Bool, ∑ d : Bool, C * (2 * B0 + B1), fun vp => ?_⟩
    refine (norm_sum_le _ _).trans (Finset.sum_le_sum fun b _ => (norm_sum_le _ _).trans (Finset.sum_le_sum fun d _ => ?_))
    rw [norm_mul]
    have h1 : ‖comp (G vp) d b‖ ≤ C := (hC d b vp).trans (mul_le_of_le_one_right hC0 (inv_le_one_of_one_le₀ (by linarith [norm_nonneg vp])))
    have h2 : ‖2 * Γ false .t 0 ![o, b, i, d] ![v, vp, v, vp] + Γ false .t 1 ![o, b, i, d] ![v, vp, v, vp]‖ ≤ 2 * B0 + B1 := by
      refine (norm_add_le _ _).trans (add_le_add ?_ (hB1 _ _))
      rw [norm_mul]; norm_num; exact hB0 _ _
    exact mul_le_mul h1 h2 (norm_nonneg _) hC0

theorem loop_rel {T mu : ℝ} {Γ : VF} (hΓ : Equilibrium T mu Γ) (tΓ : TameV Γ) {G : ℝ → Keldysh.Prop2 ℂ} (hG : ThermalG T mu G)
    (dG : Decays G) (Δ v : ℝ) : loopValue Δ Γ G false false v + star (loopValue Δ Γ G true true v) =
      ((Real.tanh ((v - mu) / (2 * T)) : ℝ) : ℂ) * (star (loopValue Δ Γ G true false v) - loopValue Δ Γ G true false v) := by
  set f : Bool → Bool → ℝ → ℂ := fun o i vp => (trace Γ (G vp) o i v vp + trace Γ (G (-vp)) o i v (-vp)) * (1/2) with hf
  have hi : ∀ o i, IntervalIntegrable (f o i) volume (-Δ * 10 - |v|) (Δ * 10 + |v|) := by
    intro o i
    obtain ⟨m, B, hB⟩ := trace_meas tΓ dG o i v
    have mm : Measurable (f o i) := (m.add (m.comp measurable_neg)).mul_const _
    refine (intervalIntegrable_const (c := B + B)).mono_fun mm.aestronglyMeasurable (Filter.Eventually.of_forall fun x => ?_)
    have h0 : 0 ≤ B := (norm_nonneg _).trans (hB 0)
    rw [Real.norm_of_nonneg (by linarith)]
    show ‖(trace Γ (G x) o i v x + trace Γ (G (-x)) o i v (-x)) * (1/2)‖ ≤ B + B
    rw [norm_mul]
    have := (norm_add_le (trace Γ (G x) o i v x) (trace Γ (G (-x)) o i v (-x))).trans (add_le_add (hB x) (hB (-x)))
    have n : ‖(1 / 2 : ℂ)‖ = 1 / 2 := by norm_num
    rw [n]
    linarith [norm_nonneg (trace Γ (G x) o i v x + trace Γ (G (-x)) o i v (-x))]
  have hs : ∀ o i, IntervalIntegrable (fun x => star (f o i x)) volume (-Δ * 10 - |v|) (Δ * 10 + |v|) := fun o i =>
    ⟨(LinearIsometryEquiv.integrable_comp_iff Complex.conjLIE).mpr (hi o i).1, (LinearIsometryEquiv.integrable_comp_iff Complex.conjLIE).mpr (hi o i).2⟩
  have key : ∫ x in (-Δ * 10 - |v|)..(Δ * 10 + |v|), (f false false x - star (f true true x)) =
      ∫ x in (-Δ * 10 - |v|)..(Δ * 10 + |v|), -((Real.tanh ((v - mu) / (2 * T)) : ℝ) : ℂ) * (star (f true false x) + f true false x) := by
    refine intervalIntegral.integral_congr fun x _ => ?_
    have h1 := trace_rel hΓ hG v x
    have h2 := trace_rel hΓ hG v (-x)
    simp only [hf, star_mul', star_add, show star (1 / 2 : ℂ) = 1 / 2 by simp]
    linear_combination (1 / 2 : ℂ) * h1 + (1 / 2 : ℂ) * h2
  rw [intervalIntegral.integral_sub (hi _ _) (hs _ _), intervalIntegral.integral_const_mul, intervalIntegral.integral_add (hs _ _) (hi _ _),
    ← star_interval, ← star_interval] at key
  have e : ∀ o i, loopValue Δ Γ G o i v = Loop.prefactor * ∫ x in (-Δ * 10 - |v|)..(Δ * 10 + |v|), f o i x := fun _ _ => rfl
  rw [e, e, e, star_mul', star_mul', star_prefactor]
  linear_combination Loop.prefactor * key

end Verif.Thermal
