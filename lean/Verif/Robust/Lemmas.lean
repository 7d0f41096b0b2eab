import Verif.Robust.Spec
import Verif.Converge.Props

namespace Verif.Robust
open Verif.Converge Verif.Symmetries Verif.Heredity Verif.Propagator Verif.Weak Verif.Sde MeasureTheory Filter Topology
open Verif.Invariant (VF SF bub full others pair)
open Verif.Spectrum (half)
open Verif.Freqs (Ch)

/-- A constant added to the retarded self-energy. -/
noncomputable def push (z : ℂ) (σ : SF) : SF := (fun v => σ.1 v + z, σ.2)

/-- What a change of width and level position does to the denominator of the propagator. -/
noncomputable def offset (p p' : Par) : ℂ := ((p'.eps - p.eps : ℝ) : ℂ) - Complex.I * ((half p' - half p : ℝ) : ℂ)

theorem offset_le (p p' : Par) : ‖offset p p'‖ ≤ |half p' - half p| + |p'.eps - p.eps| := by
  unfold offset
  refine (norm_sub_le _ _).trans ?_
  rw [norm_mul, Complex.norm_I, one_mul, Complex.norm_real, Complex.norm_real, Real.norm_eq_abs, Real.norm_eq_abs, add_comm]

/-- Changing the width or the level position amounts to a constant in the self-energy. -/
theorem line_push {p p' : Par} (hT : p'.T = p.T) (hmu : p'.mu = p.mu) (σ : SF) :
    lineG p' σ.at = lineG p (push (offset p p') σ).at := by
  funext x
  have e : den p' σ.1 x = den p (push (offset p p') σ).1 x := by
    simp only [den, push, offset]
    push_cast
    ring
  have hr : (lineG p' σ.at x).gr = (lineG p (push (offset p p') σ).at x).gr := by rw [gr_den, gr_den, e]
  have hk : (lineG p' σ.at x).gk = (lineG p (push (offset p p') σ).at x).gk := by rw [gk_form, gk_form, hr, hT, hmu]
  calc lineG p' σ.at x = ⟨(lineG p' σ.at x).gr, (lineG p' σ.at x).gk⟩ := rfl
    _ = _ := by rw [hr, hk]

theorem iteration_push {u u' : Setup} (S : Same u u') (hph : u.ph = true) (first : Bool) (hartree : SF → ℝ) (bare : VF) (y : SF × VF) :
    iteration first u' hartree bare y = iteration first { u with Δ := u'.Δ } hartree bare (push (offset u.p u'.p) y.1, y.2) := by
  have l := line_push S.T S.mu y.1
  have hp : pair u'.p y.1 = pair u.p (push (offset u.p u'.p) y.1) := by unfold Invariant.pair; rw [l]
  have hc : ∀ Γ c, closed u' bare y.1 Γ c = closed { u with Δ := u'.Δ } bare (push (offset u.p u'.p) y.1) Γ c := fun Γ c => by
    simp only [closed, split, S.ph, hph, if_true, hp, l]
  have hd : dynamic first u' bare y.1 y.2 = dynamic first { u with Δ := u'.Δ } bare (push (offset u.p u'.p) y.1) y.2 := by
    cases first
    · simp only [dynamic, Bool.false_eq_true, if_false, equation2, hc]
    · simp only [dynamic, if_true, equation1, hc]
  have hb : computeBSE u' bare y.1 y.2 = computeBSE { u with Δ := u'.Δ } bare (push (offset u.p u'.p) y.1) y.2 := by
    simp only [computeBSE, hp]
  simp only [iteration, computeSDE, S.ph, S.U, hph, if_true, hd, hb]

/-! ### The range of the loop integrals -/

theorem swing_range {f : ℝ → ℂ} {B : ℝ} (hf : Integrable f) (hB : ∀ x, ‖f x‖ ≤ B) (a b a' b' : ℝ) :
    ‖swing f a b - swing f a' b'‖ ≤ B * (|a' - a| + |b - b'|) := by
  have i : Integrable fun x => (f x + f (-x)) * (1 / 2 : ℂ) := (hf.add hf.comp_neg).mul_const _
  have e : (∫ x in a..b, (f x + f (-x)) * (1 / 2)) - (∫ x in a'..b', (f x + f (-x)) * (1 / 2)) =
      (∫ x in a..a', (f x + f (-x)) * (1 / 2)) - (∫ x in b..b', (f x + f (-x)) * (1 / 2)) :=
    intervalIntegral.integral_interval_sub_interval_comm i.intervalIntegrable i.intervalIntegrable i.intervalIntegrable
  have le : ∀ c d : ℝ, ‖∫ x in c..d, (f x + f (-x)) * (1 / 2)‖ ≤ B * |d - c| := fun c d =>
    intervalIntegral.norm_integral_le_of_norm_le_const fun x _ => by
      rw [norm_mul]
      have : ‖(1 / 2 : ℂ)‖ = 1 / 2 := by norm_num
      rw [this]
      linarith [norm_add_le (f x) (f (-x)), hB x, hB (-x)]
  unfold swing
  rw [← mul_sub, norm_mul, e]
  have n := (norm_sub_le (∫ x in a..a', (f x + f (-x)) * (1 / 2)) (∫ x in b..b', (f x + f (-x)) * (1 / 2))).trans (add_le_add (le a a') (le b b'))
  have := mul_le_mul prefactor_le n (norm_nonneg _) zero_le_one
  rw [abs_sub_comm b b']
  linarith

/-- Loops over different ranges. -/
theorem loop_range {Γ : Part} {G : ℝ → Keldysh.Prop2 ℂ} {h e k g : ℝ} {c : Ch} (hh : 0 < h) (mΓ : ∀ s α, Measurable (Γ s α))
    (hΓ : ∀ s α ν, ‖Γ s α ν‖ ≤ g * fall h e c ν) (hG : Line k h e G) (Δ Δ' : ℝ) :
    NearS (160 * (k * g) * |Δ' - Δ|) (loopOne (c == .t) Δ Γ G) (loopOne (c == .t) Δ' Γ G) := by
  intro v
  have k0 := nonneg_of_mul_nonneg_left ((norm_nonneg _).trans (hG.bound 0 true true)) (rho_pos h e 0)
  have fp : 0 < fall h e c 0 := by unfold fall; positivity
  have g0 := nonneg_of_mul_nonneg_left ((norm_nonneg _).trans (hΓ 0 (fun _ => true) 0)) fp
  have key : ∀ o i, ‖Verif.Sde.integral Δ (seen (c == .t) Γ) G o i v - Verif.Sde.integral Δ' (seen (c == .t) Γ) G o i v‖ ≤
      160 * (k * g) * |Δ' - Δ| := fun o i => by
    rw [integral_swing, integral_swing]
    refine (swing_range (B := 8 * (k * g)) (sumK_int hh mΓ hΓ hG o i v) (fun x => ?_) _ _ _ _).trans (le_of_eq ?_)
    · have := sumK_near (Γ := Γ) (Γ' := fun _ _ _ => 0) (g := 0) (dg := g) (fun s α ν => by simp) (fun s α ν => by simpa using hΓ s α ν) hG (nearG_refl G) (c == .t) o i v x
      rw [sumK_zero, sub_zero] at this
      refine this.trans ?_
      have f0 := fall_nonneg h e c (reads (c == .t) v x)
      have f1 := fall_le h e c (reads (c == .t) v x)
      have r0 := rho_pos h e x
      have r1 := rho_le h e x
      have : fall h e c (reads (c == .t) v x) * rho h e x ≤ 1 := by nlinarith
      have := mul_le_mul_of_nonneg_left this (show 0 ≤ 8 * (k * g) by positivity)
      linarith
    · have e1 : -Δ' * 10 - |v| - (-Δ * 10 - |v|) = -(10 * (Δ' - Δ)) := by ring
      have e2 : Δ * 10 + |v| - (Δ' * 10 + |v|) = -(10 * (Δ' - Δ)) := by ring
      rw [e1, e2, abs_neg, abs_mul, abs_of_pos (by norm_num : (0 : ℝ) < 10)]
      ring
  rw [loopOne_value, loopOne_value]
  constructor
  · show ‖(if (c == .t) then -1 else 1 : ℝ) • star (Verif.Sde.integral Δ (seen (c == .t) Γ) G true false v) -
      (if (c == .t) then -1 else 1 : ℝ) • star (Verif.Sde.integral Δ' (seen (c == .t) Γ) G true false v)‖ ≤ _
    rw [← smul_sub, turned, ← star_sub, norm_star]
    exact key true false
  · show ‖(if (c == .t) then -1 else 1 : ℝ) • Verif.Sde.integral Δ (seen (c == .t) Γ) G false false v -
      (if (c == .t) then -1 else 1 : ℝ) • Verif.Sde.integral Δ' (seen (c == .t) Γ) G false false v‖ ≤ _
    rw [← smul_sub, turned]
    exact key false false

variable {u : Setup} {bare : VF} {t : ℝ}

/-- The range of the loop integrals hardly matters. -/
theorem range_near (W : Weakly u bare t) (first : Bool) (hartree : SF → ℝ) {y : SF × VF} (h : Ball u t y) (Δ : ℝ) :
    Near u t (t / half u.p * (|Δ - u.Δ| / 2)) (iteration first u hartree bare y) (iteration first { u with Δ := Δ } hartree bare y) := by
  have H := two W h h (ball_near W.pos W.width h h)
  have h0 := H.hh
  have t0 := H.pos
  have closed_range : ∀ {Γ : VF}, MeasV Γ → SmallV (4 * t) Γ → ∀ c,
      NearS (1342177280 * (t / half u.p) ^ 2 * |Δ - u.Δ|) (closed u bare y.1 Γ c) (closed { u with Δ := Δ } bare y.1 Γ c) := fun {Γ} mΓ sΓ c => by
    have := loop_range (c := c) (Γ := meanBub bare Γ (pair u.p y.1) false c) h0 (fun s α => H.mean_meas mΓ false c s α)
      (fun s α ν => H.mean_small mΓ sΓ false c s α ν) H.lG u.Δ Δ
    have e : 160 * (8 / half u.p * (1048576 * t ^ 2 / half u.p)) = 1342177280 * (t / half u.p) ^ 2 := by field_simp; ring
    rw [e] at this
    simp only [closed, split, W.ph, if_true]
    exact this
  have n := Two.dynamic_near (u' := { u with Δ := Δ }) first (fun c => closed_range H.m_sum H.s_sum c) (fun c => closed_range H.mb H.s_bare c)
    (fun c => closed_range H.m_full H.s_full c)
  have r := H.ratio
  have r0 : 0 ≤ t / half u.p := by positivity
  have sq : (t / half u.p) ^ 2 ≤ 1 / 10 ^ 14 := by
    have : (t / half u.p) ^ 2 ≤ (1 / (3 * 10 ^ 7)) ^ 2 := by gcongr
    exact this.trans (by norm_num)
  have le : 5 * (1342177280 * (t / half u.p) ^ 2 * |Δ - u.Δ|) ≤ |Δ - u.Δ| / 2 := by
    have := mul_le_mul_of_nonneg_right sq (abs_nonneg (Δ - u.Δ))
    have a := abs_nonneg (Δ - u.Δ)
    nlinarith
  rw [near_iff W.pos W.width]
  refine ⟨fun v => ?_, fun v => ?_, fun hh c s α ν => ?_⟩
  · simp only [iteration, computeSDE, shift, W.ph, if_true, add_sub_add_right_eq_sub]
    have n1 := (n v).1.trans le
    simp only [W.ph] at n1
    exact mul_le_mul_of_nonneg_left n1 r0
  · simp only [iteration, computeSDE, shift, W.ph, if_true]
    have n2 := (n v).2.trans le
    simp only [W.ph] at n2
    exact mul_le_mul_of_nonneg_left n2 r0
  · have : (iteration first u hartree bare y).2 = (iteration first { u with Δ := Δ } hartree bare y).2 := rfl
    rw [this, sub_self, norm_zero]
    positivity

/-! ### Fixed points and errors -/

theorem near_mono (ht : 0 < t) (hw : 0 < u.p.Gam + u.p.Lam) {d d' : ℝ} {a b : SF × VF} (l : d ≤ d') (n : Near u t d a b) : Near u t d' a b := by
  rw [near_iff ht hw] at n ⊢
  exact ⟨fun v => (n.1 v).trans l, fun v => (n.2.1 v).trans l, fun h c s α ν => (n.2.2 h c s α ν).trans l⟩

/-- A distance that is at most half of itself plus `a` is at most `2 a`. -/
theorem near_self (ht : 0 < t) (hw : 0 < u.p.Gam + u.p.Lam) {a D : ℝ} {x y : SF × VF} (h0 : Near u t D x y)
    (h : ∀ d, Near u t d x y → Near u t (d / 2 + a) x y) : Near u t (2 * a) x y := by
  have key : ∀ k : ℕ, Near u t (2 * a + (1 / 2) ^ k * (D - 2 * a)) x y := fun k => by
    induction k with
    | zero => simpa using h0
    | succ k ih =>
      refine near_mono ht hw (le_of_eq ?_) (h _ ih)
      rw [pow_succ]
      ring
  have lim : ∀ {x : ℝ}, (∀ k : ℕ, x ≤ 2 * a + (1 / 2) ^ k * (D - 2 * a)) → x ≤ 2 * a := fun {x} h => by
    have z : Tendsto (fun k : ℕ => 2 * a + (1 / 2 : ℝ) ^ k * (D - 2 * a)) atTop (𝓝 (2 * a + 0 * (D - 2 * a))) :=
      ((tendsto_pow_atTop_nhds_zero_of_lt_one (by norm_num) (by norm_num)).mul_const _).const_add _
    have := ge_of_tendsto' z h
    linarith
  rw [near_iff ht hw]
  have key' := fun k => (near_iff ht hw).1 (key k)
  exact ⟨fun v => lim fun k => (key' k).1 v, fun v => lim fun k => (key' k).2.1 v, fun h c s α ν => lim fun k => (key' k).2.2 h c s α ν⟩

/-- The self-energy of a solution is close to its Hartree value. -/
theorem solution_tiny (W : Weakly u bare t) (first : Bool) (hartree : SF → ℝ) {s : SF × VF} (hs : Ball u t s)
    (hfix : iteration first u hartree bare s = s) (v : ℝ) :
    ‖s.1.1 v - ((u.U / 2 : ℝ) : ℂ)‖ ≤ half u.p / 1000 ∧ ‖s.1.2 v‖ ≤ half u.p / 1000 := by
  have H := two W hs hs (ball_near W.pos W.width hs hs)
  have := H.dynamic_tiny W.ph first v
  have e : s.1 = shift (u.U / 2) (dynamic first u bare s.1 s.2) := by
    conv_lhs => rw [← hfix]
    simp only [iteration, computeSDE, W.ph, if_true]
  rw [e]
  simp only [shift, add_sub_cancel_right]
  simpa using this

end Verif.Robust
