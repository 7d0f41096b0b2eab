import Verif.Pt2.Diagram
import Verif.Pt2.PropsVertex

/-! C165: the self-energy of second order. -/
namespace Verif.Pt2
open Verif.Symmetries Verif.Heredity Verif.Propagator Verif.Invariant Verif.Sde.Limit Verif.Sde MeasureTheory
open Verif.Freqs (Ch)

section
variable {A G : Line} (hG : Decays G) (w : ℝ) (o i : Bool) (v vp : ℝ)
include hG

theorem pair_int {y z : ℝ → ℝ} (hy : Measurable y) (hz : Measurable z)
    (iy : Integrable fun x => ((1 + ‖y x‖)⁻¹) ^ 2) (iz : Integrable fun x => ((1 + ‖z x‖)⁻¹) ^ 2) (a b c d : Bool) :
    Integrable fun x => pairOf G G false a b c d (y x) (z x) := by
  obtain ⟨C, hC0, hC⟩ := comp_bound hG
  refine ((iy.add iz).const_mul (C * C)).mono' (((comp_meas hG _ _).comp hy).mul ((comp_meas hG _ _).comp hz)).aestronglyMeasurable
    (Filter.Eventually.of_forall fun x => ?_)
  simp only [pairOf, Bool.false_eq_true, if_false, norm_mul, Pi.add_apply]
  set s := (1 + ‖y x‖)⁻¹ with hs
  set r := (1 + ‖z x‖)⁻¹ with hr
  have s0 : 0 ≤ s := by positivity
  have r0 : 0 ≤ r := by positivity
  calc _ ≤ (C * s) * (C * r) := by
        gcongr
        · exact hC _ _ _
        · exact hC _ _ _
    _ = C * C * (s * r) := by ring
    _ ≤ _ := by
      refine mul_le_mul_of_nonneg_left ?_ (by positivity)
      nlinarith [sq_nonneg (s - r)]

/-- Channel `a`, first spin component. -/
theorem close_a : ∑ b : Bool, ∑ d : Bool, comp (A vp) d b * bub (bareK w) (bareK w) (pairOf G G false) false .a 0 ![o, b, i, d] ![v, vp, v, vp] =
    pref .a * ∫ y : ℝ, dia3 A G G w o i v vp y := by
  have hm : Measurable fun y : ℝ => y + vp - v := by fun_prop
  have hζ : Integrable fun y : ℝ => ((1 + ‖y + vp - v‖)⁻¹) ^ 2 := by simpa [add_sub_assoc] using shift_two (vp - v)
  have I := fun a b c d => pair_int hG measurable_id hm int_two hζ a b c d
  simp only [id] at I
  have J : ∀ k : K6, Integrable fun y => kern3 A G G w o i v vp y k := fun k =>
    ((I k.2.2.1 k.2.2.2.1 k.2.2.2.2.1 k.2.2.2.2.2).const_mul (comp (A vp) k.2.1 k.1 * (beta w o k.2.2.2.2.2 k.2.2.1 k.2.1 *
      beta w k.2.2.2.2.1 k.1 i k.2.2.2.1))).congr (Filter.Eventually.of_forall fun y => by
        simp only [kern3, pairOf, Bool.false_eq_true, if_false]; ring)
  simp only [dia3]
  rw [integral_finsetSum _ fun k _ => J k, sum_six, Finset.mul_sum]
  refine Finset.sum_congr rfl fun b _ => ?_
  rw [Finset.mul_sum]
  refine Finset.sum_congr rfl fun d _ => ?_
  rw [bub_a, mul_left_comm]
  refine congrArg (pref .a * ·) ?_
  simp only [inner_a_left]
  rw [integral_finsetSum, Finset.mul_sum]
  · refine Finset.sum_congr rfl fun k _ => ?_
    rw [← integral_const_mul]
    refine integral_congr_ae (Filter.Eventually.of_forall fun y => ?_)
    simp only [kern3, bare_val, if_true, pairOf, Bool.false_eq_true, if_false]
    ring
  · intro k _
    simp only [bare_val, if_true]
    exact ((I k.1 k.2.1 k.2.2.1 k.2.2.2).const_mul _).mul_const _

/-- Channel `p`, first spin component. -/
theorem close_p : ∑ b : Bool, ∑ d : Bool, comp (A vp) d b * bub (bareK w) (bareK w) (pairOf G G false) false .p 0 ![o, b, i, d] ![v, vp, v, vp] =
    pref .a * ∫ y : ℝ, dia3 G G A w o i v (v + vp - y) y := by
  have hm : Measurable fun y : ℝ => v + vp - y := by fun_prop
  have hζ : Integrable fun y : ℝ => ((1 + ‖v + vp - y‖)⁻¹) ^ 2 := flip_two (v + vp)
  have I := fun a b c d => pair_int hG measurable_id hm int_two hζ a b c d
  simp only [id] at I
  let e : K6 ≃ K6 := ⟨fun k => (k.2.2.2.2.2, k.2.2.2.1, k.2.2.1, k.2.1, k.2.2.2.2.1, k.1),
      fun k => (k.2.2.2.2.2, k.2.2.2.1, k.2.2.1, k.2.1, k.2.2.2.2.1, k.1), fun _ => rfl, fun _ => rfl⟩
  have Kv : ∀ (k : K6) y, kern3 G G A w o i v (v + vp - y) y (e k) = comp (A vp) k.2.1 k.1 * (beta w o k.1 k.2.2.1 k.2.2.2.1 *
      pairOf G G false k.2.2.1 k.2.2.2.1 k.2.2.2.2.1 k.2.2.2.2.2 y (v + vp - y) * beta w k.2.2.2.2.1 k.2.2.2.2.2 i k.2.1) := by
    intro k y
    simp only [kern3, pairOf, Bool.false_eq_true, if_false, e, Equiv.coe_fn_mk]
    rw [show y + (v + vp - y) - v = vp by ring]
    ring
  have J : ∀ k : K6, Integrable fun y => kern3 G G A w o i v (v + vp - y) y (e k) := fun k => by
    simp only [Kv]
    exact (((I k.2.2.1 k.2.2.2.1 k.2.2.2.2.1 k.2.2.2.2.2).const_mul _).mul_const _).const_mul _
  have sw : ∀ y, dia3 G G A w o i v (v + vp - y) y = ∑ k : K6, kern3 G G A w o i v (v + vp - y) y (e k) := fun y =>
    (e.sum_comp (kern3 G G A w o i v (v + vp - y) y)).symm
  simp only [sw]
  rw [integral_finsetSum _ fun k _ => J k, sum_six, Finset.mul_sum]
  refine Finset.sum_congr rfl fun b _ => ?_
  rw [Finset.mul_sum]
  refine Finset.sum_congr rfl fun d _ => ?_
  rw [bub_p, mul_left_comm]
  refine congrArg (pref .a * ·) ?_
  simp only [inner_p_left]
  rw [integral_finsetSum, Finset.mul_sum]
  · refine Finset.sum_congr rfl fun k _ => ?_
    rw [← integral_const_mul]
    refine integral_congr_ae (Filter.Eventually.of_forall fun y => ?_)
    simp only [Kv, bare_val, if_true]
  · intro k _
    simp only [bare_val, if_true]
    exact ((I k.1 k.2.1 k.2.2.1 k.2.2.2).const_mul _).mul_const _
end

section
variable (w : ℝ) (P : Pair) (o b i d : Bool) (v vp : ℝ)

/-- The second spin component vanishes in channel `a`. -/
theorem spin_a : bub (bareK w) (bareK w) P false .a 1 ![o, b, i, d] ![v, vp, v, vp] = 0 := by
  simp only [bub, bubble]
  split
  · simp only [Heredity.inner, sum_lines]
    simp [Heredity.term, legVal, bare_val]
  · rfl

/-- It is the negative of the first in channel `p`. -/
theorem spin_p : bub (bareK w) (bareK w) P false .p 1 ![o, b, i, d] ![v, vp, v, vp] =
    -bub (bareK w) (bareK w) P false .p 0 ![o, b, i, d] ![v, vp, v, vp] := by
  simp only [bub, bubble]
  split
  · rw [← mul_neg, ← integral_neg]
    refine congrArg (pref .p * ·) (integral_congr_ae (Filter.Eventually.of_forall fun x => ?_))
    simp only [Heredity.inner, sum_lines, ← Finset.sum_neg_distrib]
    refine Finset.sum_congr rfl fun k _ => ?_
    simp [Heredity.term, legVal, bare_val]
  · simp

/-- In channel `t` the frequency of the closing line plays no role, and of its indices only whether they are equal. -/
theorem flip_t (s : Nat) (x : ℝ) : bub (bareK w) (bareK w) P false .t s ![o, !b, i, !d] ![v, x, v, x] =
    bub (bareK w) (bareK w) P false .t s ![o, b, i, d] ![v, vp, v, vp] := by
  have hb : ∀ a c, beta w a (!b) c (!d) = beta w a b c d := by
    intro a c
    cases a <;> cases b <;> cases c <;> cases d <;> simp [beta, twos]
  simp only [bub, bubble]
  have q : ∀ x : ℝ, ![v, x, v, x] 0 + ![v, x, v, x] 1 = ![v, x, v, x] 2 + ![v, x, v, x] 3 := fun x => by simp
  rw [if_pos (q x), if_pos (q vp)]
  refine congrArg (pref .t * ·) (integral_congr_ae (Filter.Eventually.of_forall fun y => ?_))
  simp only [Heredity.inner, sum_lines]
  refine Finset.sum_congr rfl fun k _ => ?_
  simp [Heredity.term, legVal, bare_val, Heredity.lineE, hb]
end

/-- A vertex that depends only on whether the indices of the closing line are equal cancels against the same at the negative
frequency. -/
theorem even_zero {S : Line} (hr : ∀ x, (S (-x)).gr = -star (S x).gr) (hk : ∀ x, (S (-x)).gk = -(S x).gk) {τ : Bool → Bool → ℂ}
    (hτ : ∀ b d, τ (!b) (!d) = τ b d) (x : ℝ) :
    ∑ b : Bool, ∑ d : Bool, comp (S x) d b * τ b d + ∑ b : Bool, ∑ d : Bool, comp (S (-x)) d b * τ b d = 0 := by
  have h1 := hτ false false
  have h2 := hτ false true
  simp only [Bool.not_false, Bool.not_true] at h1 h2
  simp only [Fintype.sum_bool, comp, hr, hk, star_neg, star_star, h1, h2]
  ring

variable {p : Par} {U w : ℝ}

theorem gAt_ph (he : p.eps = -U / 2) (l x : ℝ) : (gAt p U l (-x)).gr = -star (gAt p U l x).gr := by
  rw [gAt_gr, gAt_gr, he]
  simp only [Complex.star_def, map_div₀, map_one, map_add, map_mul, Complex.conj_ofReal, Complex.conj_I]
  rw [← neg_div, ← neg_div_neg_eq]
  congr 1
  push_cast
  ring

theorem sAt_ph (he : p.eps = -U / 2) (hm : p.mu = 0) (l : ℝ) : (∀ x, (sAt p U l (-x)).gr = -star (sAt p U l x).gr) ∧
    ∀ x, (sAt p U l (-x)).gk = -(sAt p U l x).gk := by
  have h1 : ∀ x, (sAt p U l (-x)).gr = -star (sAt p U l x).gr := by
    intro x
    rw [sAt_gr, sAt_gr, gAt_ph he]
    simp only [Complex.star_def, map_mul, Complex.conj_I, map_neg]
    have : (starRingEnd ℂ) (0.5 : ℂ) = 0.5 := by
      rw [show (0.5 : ℂ) = ((0.5 : ℝ) : ℂ) by norm_num, Complex.conj_ofReal]
    rw [this]
    ring
  refine ⟨h1, fun x => ?_⟩
  rw [sAt_gk, sAt_gk, h1]
  simp only [effFac, if_true, fermiFac, hm, sub_zero, neg_div, Real.tanh_neg, Complex.neg_im, Complex.star_def, Complex.conj_im]
  push_cast
  ring

/-- The limit of the self-energy of second order. -/
noncomputable def whole2 (p : Par) (U w l : ℝ) : SF :=
  (fun v => star (Loop.prefactor * (pref .a * tot (gAt p U l) (gAt p U l) (gAt p U l) w true false v)),
   fun v => Loop.prefactor * (pref .a * tot (gAt p U l) (gAt p U l) (gAt p U l) w false false v))

/-- Its derivative. -/
noncomputable def dwhole2 (p : Par) (U w l : ℝ) : SF :=
  (fun v => star (Loop.prefactor * (pref .a * (2 * tot (sAt p U l) (gAt p U l) (gAt p U l) w true false v +
    tot (gAt p U l) (gAt p U l) (sAt p U l) w true false v))),
   fun v => Loop.prefactor * (pref .a * (2 * tot (sAt p U l) (gAt p U l) (gAt p U l) w false false v +
    tot (gAt p U l) (gAt p U l) (sAt p U l) w false false v)))

theorem self2_limit {l : ℝ} (h : 0 < p.Gam + l) : TendsTo (fun Δ => self2 Δ { p with Lam := l } U (bareK w)) (whole2 p U w l) := by
  have hG := gAt_decays (U := U) h
  have L := fun (o i : Bool) (v : ℝ) => integral_limit (G := gAt p U l) (W := seen false (vertex2 { p with Lam := l } U (bareK w) false .a))
    (dia3_int hG hG hG w o i v) (κ := pref .a) (fun vp => by
      simp only [sumK, seen, Bool.false_eq_true, if_false]
      exact close_a hG w o i v vp)
  intro v
  simp only [self2, loopOne_value, Bool.false_eq_true, if_false, one_smul]
  exact ⟨(continuous_star.tendsto _).comp (L true false v), L false false v⟩

theorem flow_limit (he : p.eps = -U / 2) (hm : p.mu = 0) {l : ℝ} (h : 0 < p.Gam + l) :
    TendsTo (fun Δ => loop Δ (full (bareK w) (vertex2 { p with Lam := l } U (bareK w))) (sAt p U l)) (dwhole2 p U w l) := by
  have hG := gAt_decays (U := U) h
  have hS := sAt_decays (U := U) h
  obtain ⟨pr, pk⟩ := sAt_ph (U := U) he hm l
  set V := vertex2 { p with Lam := l } U (bareK w) with hV
  have hVb : V = bub (bareK w) (bareK w) (pairOf (gAt p U l) (gAt p U l) false) := rfl
  -- the part that cancels
  have key : ∀ (o i : Bool) (v : ℝ), Filter.Tendsto (fun Δ => loopValue Δ (full (bareK w) V) (sAt p U l) o i v) Filter.atTop
      (nhds (Loop.prefactor * (pref .a * (2 * tot (sAt p U l) (gAt p U l) (gAt p U l) w o i v +
        tot (gAt p U l) (gAt p U l) (sAt p U l) w o i v)))) := by
    intro o i v
    set τ : Bool → Bool → ℂ := fun b d => beta w o b i d + (2 * V false .t 0 ![o, b, i, d] ![v, 0, v, 0] + V false .t 1 ![o, b, i, d] ![v, 0, v, 0]) with hτ
    have tt : ∀ b d, τ (!b) (!d) = τ b d := by
      intro b d
      have hb : beta w o (!b) i (!d) = beta w o b i d := by
        cases o <;> cases b <;> cases i <;> cases d <;> simp [beta, twos]
      simp only [hτ, hb, hVb, flip_t w _ o b i d v 0 _ 0]
    set F : ℝ → ℂ := fun vp => pref .a * (2 * (∫ y : ℝ, dia3 (sAt p U l) (gAt p U l) (gAt p U l) w o i v vp y) +
      ∫ y : ℝ, dia3 (gAt p U l) (gAt p U l) (sAt p U l) w o i v (v + vp - y) y) with hF
    have tr : ∀ vp, trace (full (bareK w) V) (sAt p U l vp) o i v vp = ∑ b : Bool, ∑ d : Bool, comp (sAt p U l vp) d b * τ b d + F vp := by
      intro vp
      have ca := close_a (A := sAt p U l) hG w o i v vp
      have cp := close_p (A := sAt p U l) hG w o i v vp
      have t0 : ∀ s b d, V false .t s ![o, b, i, d] ![v, vp, v, vp] = V false .t s ![o, b, i, d] ![v, 0, v, 0] := by
        intro s b d
        have := flip_t w (pairOf (gAt p U l) (gAt p U l) false) o (!b) i (!d) v 0 s vp
        have t2 := flip_t w (pairOf (gAt p U l) (gAt p U l) false) o (!b) i (!d) v 0 s 0
        rw [Bool.not_not, Bool.not_not] at this t2
        rw [hVb, this, t2]
      simp only [trace, full, t0, hF, mul_add, bare_val]
      rw [mul_left_comm, ← ca, ← cp]
      simp only [hVb, spin_a, spin_p, hτ, Fintype.sum_bool]
      simp
      ring
    have I1 := dia3_int hS hG hG w o i v
    obtain ⟨I2, E2⟩ := dia3_shear hG hG hS w o i v
    have IF : Integrable F := ((I1.integral_prod_left.const_mul 2).add I2.integral_prod_left).const_mul _
    have EF : ∫ x, F x = pref .a * (2 * tot (sAt p U l) (gAt p U l) (gAt p U l) w o i v + tot (gAt p U l) (gAt p U l) (sAt p U l) w o i v) := by
      rw [hF, integral_const_mul]
      refine congrArg (pref .a * ·) ?_
      have := integral_add (I1.integral_prod_left.const_mul 2) I2.integral_prod_left
      refine this.trans ?_
      rw [integral_const_mul, ← E2]
      congr 1
      · exact congrArg (2 * ·) (integral_prod _ I1).symm
      · exact (integral_prod _ I2).symm
    have lim := (loop_limit IF v).const_mul Loop.prefactor
    rw [EF] at lim
    refine lim.congr fun Δ => ?_
    unfold loopValue
    refine congrArg (Loop.prefactor * ·) (intervalIntegral.integral_congr fun x _ => ?_)
    have z := even_zero pr pk tt x
    simp only [tr]
    linear_combination (-1/2) * z
  intro v
  simp only [(loop_value _ _ _ v).1, (loop_value _ _ _ v).2]
  exact ⟨(continuous_star.tendsto _).comp (key true false v), key false false v⟩

/-- C165: at half filling the flow of the self-energy is the derivative of the self-energy of second order, both with
complete integrals: for every flow parameter the loop of second-order perturbation theory has a limit for growing ranges of
the integral, these limits can be differentiated with respect to the flow parameter, and the right-hand side of the flow
with the vertex of second order tends to the derivative. -/
theorem c165_self (he : p.eps = -U / 2) (hm : p.mu = 0) : ∃ s ds : ℝ → SF, ∀ Λ, 0 < p.Gam + Λ →
    TendsTo (fun Δ => self2 Δ { p with Lam := Λ } U (bareK w)) (s Λ) ∧
    (∀ v, HasDerivAt (fun l => (s l).1 v) ((ds Λ).1 v) Λ ∧ HasDerivAt (fun l => (s l).2 v) ((ds Λ).2 v) Λ) ∧
    TendsTo (fun Δ => loop Δ (full (bareK w) (vertex2 { p with Lam := Λ } U (bareK w)))
      (lineS { p with Lam := Λ } (bareSE U).at (0 : SF).at)) (ds Λ) := by
  refine ⟨whole2 p U w, dwhole2 p U w, fun Λ h => ⟨self2_limit h, fun v => ⟨?_, ?_⟩, flow_limit he hm h⟩⟩
  · exact (((tot_deriv (U := U) h w true false v).const_mul (pref .a)).const_mul Loop.prefactor).star
  · exact ((tot_deriv (U := U) h w false false v).const_mul (pref .a)).const_mul Loop.prefactor

/-- C165: the right-hand side of the flow at the state of second-order perturbation theory, for every number of loops: its
vertex is the derivative of the vertex of that state, and its self-energy tends to the derivative of the limit of the
self-energy of that state when the range of the integrals grows. -/
theorem c165_flow (he : p.eps = -U / 2) (hm : p.mu = 0) {o : Open} (ho : ∀ v s, o.accel [(v, s)] [(v, s)] = s)
    (h0 : o.absS 0 = some 0) {cfg : MfRG.Cfg} (hn : 1 ≤ cfg.nloops) (ht : 0 ≤ cfg.seTolAbs) : ∃ s ds : ℝ → SF, ∃ r : ℝ → ℝ → MfRG.Iter VF SF,
    ∀ Λ, 0 < p.Gam + Λ →
      (∀ Δ, MfRG.rhs (eqs o Δ { p with Lam := Λ } U (bareK w) (state2 Δ { p with Lam := Λ } U (bareK w)).1
        (state2 Δ { p with Lam := Λ } U (bareK w)).2) cfg = .ok (r Λ Δ)) ∧
      (∀ Δ half c k α ν, HasDerivAt (fun l => (state2 Δ { p with Lam := l } U (bareK w)).2 half c k α ν) ((r Λ Δ).vertex half c k α ν) Λ) ∧
      TendsTo (fun Δ => (state2 Δ { p with Lam := Λ } U (bareK w)).1) (s Λ) ∧
      (∀ v, HasDerivAt (fun l => (s l).1 v) ((ds Λ).1 v) Λ ∧ HasDerivAt (fun l => (s l).2 v) ((ds Λ).2 v) Λ) ∧
      TendsTo (fun Δ => (r Λ Δ).sigma) (ds Λ) := by
  have R := fun Λ Δ => c165_loops (p := { p with Lam := Λ }) (U := U) ho h0 Δ (bareK w) (state2 Δ { p with Lam := Λ } U (bareK w)).1
    (state2 Δ { p with Lam := Λ } U (bareK w)).2 hn ht
  obtain ⟨s, ds, H⟩ := c165_self (w := w) he hm
  refine ⟨fun Λ => shift (U / 2) (s Λ), ds, fun Λ Δ => (R Λ Δ).choose, fun Λ h => ⟨fun Δ => (R Λ Δ).choose_spec.1,
    fun Δ half c k α ν => ?_, fun v => ⟨((H Λ h).1 v).1.add_const _, ((H Λ h).1 v).2⟩, fun v => ⟨((H Λ h).2.1 v).1.add_const _, ((H Λ h).2.1 v).2⟩, ?_⟩⟩
  · rw [(R Λ Δ).choose_spec.2.2.1]
    exact c165_vertex h half c k α ν
  · have e : (fun Δ => (R Λ Δ).choose.sigma) = fun Δ => loop Δ (full (bareK w) (vertex2 { p with Lam := Λ } U (bareK w)))
        (lineS { p with Lam := Λ } (bareSE U).at (0 : SF).at) := by
      funext Δ
      exact (R Λ Δ).choose_spec.2.1
    rw [e]
    exact (H Λ h).2.2

/-- Non-vacuity: two loops without acceleration, at half filling, for the parameters of the code. -/
example (U Gam T : ℝ) := c165_flow (p := ⟨0, -U / 2, Gam, T, 0, 0⟩) (U := U) (w := -U / 2) rfl rfl
  (o := ⟨id, fun e _ => (e.getLast?.map (·.2)).getD 0, fun _ => some 0, fun _ _ => some 0, fun _ => some 0, fun _ _ => none⟩)
  (fun _ _ => rfl) rfl (cfg := ⟨2, true, 10, 0, 0, 0, 0⟩) (by decide) (by decide)

end Verif.Pt2
