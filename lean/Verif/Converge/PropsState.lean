import Verif.Converge.Props
import Verif.Sde.PropsLimit
import Verif.Sde.Cases

/-! # C169: where the iteration starts, and the symmetries of the solution -/
namespace Verif.Converge
open Verif.Symmetries Verif.Heredity Verif.Propagator Verif.Weak Verif.Sde MeasureTheory Filter Topology
open Verif.Invariant (VF SF bub pair GoodV GoodS GoodState)
open Verif.Spectrum (half)
open Verif.Freqs (Ch)
open Verif.Sde.Limit (bareK beta_bound bareK_good)

variable {u : Setup} {bare : VF} {t : ℝ}

/-- **C169** (start). The bare state and the state of second-order perturbation theory, with which the solver is started, are
such states. -/
theorem c169_start (W : Weakly u bare t) : Ball u t (Pt2.bareSE u.U, 0) ∧ Ball u t (Pt2.state2 u.Δ u.p u.U bare) := by
  have hb := bare_ball W
  have H := two W hb hb (d := 2 * t) (ball_near W.pos W.width hb hb)
  refine ⟨hb, ?_⟩
  have h0 : 0 < half u.p := Weak.half_pos W.width
  have t0 := W.pos
  have eh : half u.p / 2 = (u.p.Gam + u.p.Lam) / 4 := by unfold Spectrum.half; ring
  have m : MeasV (Pt2.vertex2 u.p u.U bare) := bub_meas W.measurable W.measurable H.mG
  have b : ∀ h c s α ν, ‖Pt2.vertex2 u.p u.U bare h c s α ν‖ ≤ 262144 * t ^ 2 / half u.p * fall (half u.p) (u.p.eps + u.U / 2) c ν := fun h c s α ν => by
    have := bub_le h0 W.measurable W.measurable W.small W.small H.lG h c s α ν
    have e1 : 128 * total (3 / 2) * half u.p * size (8 / half u.p) 0 t t t t = 262144 * t ^ 2 / half u.p := by
      rw [total32, size]; field_simp; ring
    rw [e1] at this
    exact this
  have ml := loop_meas (fun s α => m false .a s α) H.lG.meas false u.Δ
  have z : loopOne (Ch.a == .t) u.Δ (fun _ _ _ => 0) (lineG u.p (Pt2.bareSE u.U).at) = 0 := by
    rw [loopOne_value]
    have : ∀ o i v, Verif.Sde.integral u.Δ (seen (Ch.a == .t) fun _ _ _ => 0) (lineG u.p (Pt2.bareSE u.U).at) o i v = 0 := fun o i v => by
      simp [Verif.Sde.integral, sumK_zero]
    simp only [this, star_zero]
    exact smul_zero _
  have l := loop_near (c := .a) (Γ := Pt2.vertex2 u.p u.U bare false .a) (Γ' := fun _ _ _ => 0) h0 (fun s α => m false .a s α) (fun _ _ => measurable_const)
    (fun s α ν => b false .a s α ν) (fun s α ν => by
      have := fall_nonneg (half u.p) (u.p.eps + u.U / 2) .a ν
      rw [norm_zero]; positivity) (dg := 262144 * t ^ 2 / half u.p) (fun s α ν => by
      rw [sub_zero]; exact b false .a s α ν) H.lG H.lG (nearG_refl _) u.Δ
  rw [z] at l
  have q := H.sq_small
  refine ⟨⟨ml.1.add_const _, ml.2, m⟩, fun v => ?_, fun h c s α ν => ?_⟩
  · have le : 16 * total (5 / 4) * half u.p * (8 / half u.p * (262144 * t ^ 2 / half u.p) + 0 * (262144 * t ^ 2 / half u.p)) ≤ half u.p / 2 := by
      have e : 16 * total (5 / 4) * half u.p * (8 / half u.p * (262144 * t ^ 2 / half u.p) + 0 * (262144 * t ^ 2 / half u.p)) = 268435456 * (t ^ 2 / half u.p) := by
        rw [total54]; field_simp; ring
      rw [e]
      linarith
    have a := (l v).1.trans le
    have c := (l v).2.trans le
    rw [eh] at a c
    have aa : (Ch.a == Ch.t) = false := rfl
    simp only [Prod.fst_zero, Prod.snd_zero, Pi.zero_apply, sub_zero, aa] at a c
    simp only [Pt2.state2, shift, Pt2.self2, add_sub_cancel_right, Pi.zero_apply, sub_zero]
    exact ⟨a, c⟩
  · refine (b h c s α ν).trans ?_
    have f0 := fall_nonneg (half u.p) (u.p.eps + u.U / 2) c ν
    have f1 := fall_le (half u.p) (u.p.eps + u.U / 2) c ν
    have r := H.ratio
    have p : 0 ≤ 262144 * t ^ 2 / half u.p := by positivity
    have : 262144 * t ^ 2 / half u.p ≤ t := by
      have e : 262144 * t ^ 2 / half u.p = 262144 * (t / half u.p) * t := by ring
      rw [e]
      have : 262144 * (t / half u.p) ≤ 1 := (mul_le_mul_of_nonneg_left r (by norm_num)).trans (by norm_num)
      nlinarith
    nlinarith

/-- Values of states that come arbitrarily close to each other. -/
theorem pointwise {x : ℕ → SF × VF} {s : SF × VF} {q D : ℝ} (q0 : 0 ≤ q) (q1 : q < 1) (h : ∀ n, Near u t (q ^ n * D) (x n) s) :
    (∀ v, Tendsto (fun n => (x n).1.1 v) atTop (𝓝 (s.1.1 v))) ∧ (∀ v, Tendsto (fun n => (x n).1.2 v) atTop (𝓝 (s.1.2 v))) ∧
      ∀ a c σ α ν, Tendsto (fun n => (x n).2 a c σ α ν) atTop (𝓝 (s.2 a c σ α ν)) := by
  have lim : Tendsto (fun n : ℕ => q ^ n * D) atTop (𝓝 0) := by
    have := (tendsto_pow_atTop_nhds_zero_of_lt_one q0 q1).mul_const D
    simpa using this
  have key : ∀ {z : ℕ → ℂ} {a : ℂ} {K : ℝ}, (∀ n, ‖z n - a‖ ≤ q ^ n * D * K) → Tendsto z atTop (𝓝 a) := fun {z a K} hz => by
    rw [tendsto_iff_norm_sub_tendsto_zero]
    have := lim.mul_const K
    rw [zero_mul] at this
    exact squeeze_zero (fun _ => norm_nonneg _) hz this
  exact ⟨fun v => key (K := (u.p.Gam + u.p.Lam) / 2 / t) fun n => (((h n).1 v).1).trans (le_of_eq (by ring)),
    fun v => key (K := (u.p.Gam + u.p.Lam) / 2 / t) fun n => (((h n).1 v).2).trans (le_of_eq (by ring)),
    fun a c σ α ν => key (K := 1) fun n => ((h n).2 a c σ α ν).trans (le_of_eq (by ring))⟩

/-- Symmetries survive the limit. -/
theorem good_limit {ph : Bool} {e : ℝ} {x : ℕ → SF × VF} {s : SF × VF} (hx : ∀ n, GoodState ph e (x n))
    (h1 : ∀ v, Tendsto (fun n => (x n).1.1 v) atTop (𝓝 (s.1.1 v))) (h2 : ∀ v, Tendsto (fun n => (x n).1.2 v) atTop (𝓝 (s.1.2 v)))
    (h3 : ∀ a c σ α ν, Tendsto (fun n => (x n).2 a c σ α ν) atTop (𝓝 (s.2 a c σ α ν))) : GoodState ph e s := by
  have st : ∀ {z : ℕ → ℂ} {a : ℂ}, Tendsto z atTop (𝓝 a) → Tendsto (fun n => star (z n)) atTop (𝓝 (star a)) := fun hz =>
    (continuous_star.tendsto _).comp hz
  refine ⟨⟨fun v => ?_, fun hp v => ⟨?_, ?_⟩⟩, ⟨⟨?_, ?_, ?_, ?_, ?_, ?_, ?_⟩, fun h => ?_⟩⟩
  · exact tendsto_nhds_unique (st (h2 v)) ((h2 v).neg.congr fun n => ((hx n).1.anti v).symm)
  · exact tendsto_nhds_unique (h1 (-v)) ((((st (h1 v)).neg).sub_const (2 * (e : ℂ))).congr fun n => ((hx n).1.ph hp v).1.symm)
  · exact tendsto_nhds_unique (h2 (-v)) ((h2 v).neg.congr fun n => ((hx n).1.ph hp v).2.symm)
  · exact fun h c σ α ν hs => tendsto_nhds_unique (h3 h c σ α ν) (((h3 _ _ _ _ _).const_mul _).congr fun n => ((hx n).2.sym.crossIn h c σ α ν hs).symm)
  · exact fun h c σ α ν hs => tendsto_nhds_unique (h3 h c σ α ν) (((h3 _ _ _ _ _).const_mul _).congr fun n => ((hx n).2.sym.crossOut h c σ α ν hs).symm)
  · exact fun hk h c σ α ν hs => tendsto_nhds_unique (h3 h c σ α ν) (((st (h3 _ _ _ _ _)).const_mul _).congr fun n => ((hx n).2.sym.conjK hk h c σ α ν hs).symm)
  · exact fun hk => absurd hk (by simp)
  · exact fun hk hp h c σ α ν hs => tendsto_nhds_unique (h3 h c σ α ν) (((st (h3 _ _ _ _ _)).const_mul _).congr fun n => ((hx n).2.sym.ph hk hp h c σ α ν hs).symm)
  · exact fun hk => absurd hk (by simp)
  · exact fun hk => absurd hk (by simp)
  · funext c σ α ν
    exact tendsto_nhds_unique (h3 h c σ α ν) ((h3 false c σ α ν).congr fun n => by rw [(hx n).2.same h])

/-- **C169** (symmetries). With a symmetric bare vertex and the level at minus half the interaction the solution has crossing,
conjugation and particle-hole symmetry. -/
theorem c169_symmetric (W : Weakly u bare t) (R : Ready u bare) (first : Bool) (hartree : SF → ℝ) {s : SF × VF} (hs : Ball u t s)
    (hfix : iteration first u hartree bare s = s) : GoodState u.ph u.p.eps s := by
  have hb := bare_ball W
  have rate := c169_rate W first hartree hs hfix zero_le_one le_rfl hb (ball_near W.pos W.width hb hs)
  have start : GoodState u.ph u.p.eps (Pt2.bareSE u.U, 0) := by
    refine ⟨⟨fun v => by simp [Pt2.bareSE], fun hp v => ?_⟩, GoodV.zero⟩
    rw [R.eps hp]
    simp only [Pt2.bareSE, Pi.zero_apply, neg_zero, and_true, Complex.star_def, Complex.conj_ofReal]
    push_cast; ring
  have good : ∀ n, GoodState u.ph u.p.eps ((mixed (iteration first u hartree bare) 1)^[n] (Pt2.bareSE u.U, 0)) := fun n => by
    induction n with
    | zero => exact start
    | succ n ih =>
      rw [Function.iterate_succ_apply']
      have e : ∀ y, mixed (iteration first u hartree bare) 1 y = iteration first u hartree bare y := fun y => by simp [mixed]
      rw [e]
      exact c159_iteration R first hartree ih
  obtain ⟨h1, h2, h3⟩ := pointwise (by norm_num) (by norm_num) fun n => (rate n).2
  exact good_limit good h1 h2 h3

/-! ### A weak interaction -/

/-- A level with particle-hole symmetry, of width two, at the interaction `10⁻⁷`. -/
noncomputable def example_u : Setup := ⟨true, 1 / 10 ^ 7, 10, (-1, 1), { v := 0, eps := -(1 / 10 ^ 7 / 2), mu := 0, T := 1, Gam := 1, Lam := 3 }⟩

theorem example_weakly : Weakly example_u (bareK (-(1 / 10 ^ 7 / 2))) (1 / 10 ^ 7 / 2) := by
  refine ⟨rfl, by norm_num [example_u], by norm_num, by norm_num [example_u], fun _ _ _ _ => measurable_const, fun h c s α ν => ?_⟩
  have e : |(-(1 / 10 ^ 7 / 2) : ℝ)| ≤ 1 / 10 ^ 7 / 2 := by norm_num [abs_of_pos]
  refine le_trans ?_ e
  unfold bareK
  split
  · exact beta_bound ..
  · rw [norm_neg]; exact beta_bound ..

/-- Non-vacuity: the solution exists and is symmetric for this interaction, and the solver may start with second order. -/
example : (∃ s, Ball example_u (1 / 10 ^ 7 / 2) s ∧ iteration true example_u (fun _ => 0) (bareK (-(1 / 10 ^ 7 / 2))) s = s ∧
    GoodState true (-(1 / 10 ^ 7 / 2)) s) ∧ Ball example_u (1 / 10 ^ 7 / 2) (Pt2.state2 10 example_u.p (1 / 10 ^ 7) (bareK (-(1 / 10 ^ 7 / 2)))) := by
  obtain ⟨s, h1, h2, -⟩ := c169_solution example_weakly true fun _ => 0
  exact ⟨⟨s, h1, h2, c169_symmetric example_weakly ⟨bareK_good _ _, fun _ => rfl, fun _ => rfl⟩ true (fun _ => 0) h1 h2⟩, (c169_start example_weakly).2⟩

/-- Sizes: the value of the self-energy or of the vertex at one point. -/
theorem example_size : Size example_u (1 / 10 ^ 7 / 2) (fun y => ‖y.1.1 0‖) ∧ ∀ h c s α ν, Size example_u (1 / 10 ^ 7 / 2) fun y => ‖y.2 h c s α ν‖ := by
  have W := example_weakly
  have sub : ∀ a b : ℂ, ‖a‖ ≤ ‖b‖ + ‖a - b‖ := fun a b => by
    have := norm_add_le b (a - b)
    rwa [add_sub_cancel] at this
  refine ⟨⟨fun z => norm_nonneg _, fun x y => sub _ _, 1 / ((1 / 10 ^ 7 / 2) / half example_u.p), fun d z n => ?_⟩,
    fun h c s α ν => ⟨fun z => norm_nonneg _, fun x y => sub _ _, 1, fun d z n => ?_⟩⟩
  · have hp : 0 < half example_u.p := Weak.half_pos W.width
    rw [near_iff W.pos W.width] at n
    have b := n.1 0
    simp only [Prod.fst_zero, Pi.zero_apply, sub_zero] at b
    have k : 0 < (1 / 10 ^ 7 / 2) / half example_u.p := by positivity
    rw [one_div, inv_mul_eq_div, le_div_iff₀ k]
    linarith
  · have a := n.2 h c s α ν
    simp only [Prod.snd_zero, Pi.zero_apply, sub_zero] at a
    linarith

/-- Non-vacuity: judged by the self-energy at zero frequency, which is not zero, the solver converges from the bare state and
from second order. -/
example : ∃ N0, ∀ Nmax ≥ N0, ∀ y ∈ [(Pt2.bareSE (1 / 10 ^ 7), (0 : VF)), Pt2.state2 10 example_u.p (1 / 10 ^ 7) (bareK (-(1 / 10 ^ 7 / 2)))],
    (Parquet.solve (solver true (fun _ => 0) example_u (bareK (-(1 / 10 ^ 7 / 2))) (1 / 2) (fun y => ‖y.1.1 0‖) (fun y => ‖y.1.1 0‖)) (1 / 10 ^ 6) Nmax 1 y).2 = true := by
  have W := example_weakly
  have pos : ∀ {s}, Ball example_u (1 / 10 ^ 7 / 2) s → iteration true example_u (fun _ => 0) (bareK (-(1 / 10 ^ 7 / 2))) s = s → 0 < ‖s.1.1 0‖ := fun {s} hs hf => by
    have g := (c169_symmetric W ⟨bareK_good _ _, fun _ => rfl, fun _ => rfl⟩ true (fun _ => 0) hs hf).1.ph rfl 0
    rw [norm_pos_iff]
    intro h
    have := g.1
    rw [neg_zero, h] at this
    norm_num [example_u] at this
  have key : ∀ {y}, Ball example_u (1 / 10 ^ 7 / 2) y → ∃ N0, ∀ Nmax ≥ N0, (Parquet.solve (solver true (fun _ => 0) example_u (bareK (-(1 / 10 ^ 7 / 2))) (1 / 2)
      (fun y => ‖y.1.1 0‖) (fun y => ‖y.1.1 0‖)) (1 / 10 ^ 6) Nmax 1 y).2 = true := fun {y} hy => by
    obtain ⟨s, h1, h2, h3, -⟩ := c169_solver (first := true) (hartree := fun _ => 0) W example_size.1 example_size.1 (m := 1 / 2) (by norm_num) (by norm_num) hy 1
    exact h3 (pos h1 h2) (pos h1 h2) _ (by norm_num)
  obtain ⟨h1, h2⟩ := c169_start W
  obtain ⟨a, ha⟩ := key h1
  obtain ⟨b, hb⟩ := key h2
  refine ⟨max a b, fun N hN y hy => ?_⟩
  simp only [List.mem_cons, List.not_mem_nil, or_false] at hy
  rcases hy with rfl | rfl
  · exact ha N (le_of_max_le_left hN)
  · exact hb N (le_of_max_le_right hN)

end Verif.Converge
