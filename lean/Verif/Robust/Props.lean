import Verif.Robust.Lemmas
import Verif.Converge.PropsState

/-! # C172: small errors and small changes of the parameters change the parquet solution only a little -/
namespace Verif.Robust
open Verif.Converge Verif.Propagator Verif.Weak Verif.Sde Filter Topology
open Verif.Invariant (VF SF)
open Verif.Spectrum (half)
open Verif.Sde.Limit (bareK)

variable {u u' : Setup} {bare : VF} {t : ℝ}

/-- **C172** (errors). If every update of the state is computed up to an error `ε` — by quadrature, interpolation or
rounding — the states approach the solution at the same rate until they differ from it by `2 ε / m`, for every mixing
ratio `m`. -/
theorem c172_errors (W : Weakly u bare t) (first : Bool) (hartree : SF → ℝ) {s : SF × VF} (hs : Ball u t s)
    (hfix : iteration first u hartree bare s = s) {m : ℝ} (h0 : 0 < m) (h1 : m ≤ 1) {x : ℕ → SF × VF} (hx : ∀ n, Ball u t (x n)) {ε d : ℝ}
    (hc : Computed u t ε (mixed (iteration first u hartree bare) m) x) (hd : Near u t d (x 0) s) (n : ℕ) :
    Near u t ((1 - m / 2) ^ n * d + 2 * ε / m) (x n) s := by
  have ms : mixed (iteration first u hartree bare) m s = s := by
    unfold mixed
    rw [hfix, ← add_smul]
    simp
  have ε0 := near_nonneg (hc 0)
  induction n with
  | zero =>
    refine near_mono W.pos W.width ?_ hd
    have : 0 ≤ 2 * ε / m := by positivity
    simpa using this
  | succ n ih =>
    have := mixed_near h0.le h1 ih (step_near W first hartree (hx n) hs ih)
    rw [ms] at this
    refine near_mono W.pos W.width (le_of_eq ?_) (near_trans (hc n) this)
    rw [pow_succ]
    field_simp
    ring

/-- A solution of a system with slightly different parameters is a state of the kind considered, also with the constant in
its self-energy that makes up for the difference. -/
theorem other_ball (S : Same u u') (W : Weakly u bare t) (W' : Weakly u' bare t) (first : Bool) (hartree : SF → ℝ) {s' : SF × VF}
    (hs' : Ball u' t s') (hf' : iteration first u' hartree bare s' = s') (hg : gap u u' ≤ half u.p / 4) {z : ℂ} (hz : ‖z‖ ≤ half u.p / 4) :
    Ball u t (push z s'.1, s'.2) := by
  have tiny := solution_tiny W' first hartree hs' hf'
  have h0 : 0 < half u.p := Weak.half_pos W.width
  have hw : half u'.p ≤ half u.p + half u.p / 4 := by
    have a := le_abs_self (half u'.p - half u.p)
    have b := abs_nonneg (u'.p.eps - u.p.eps)
    have c := abs_nonneg (u'.Δ - u.Δ)
    unfold gap at hg
    linarith
  have e : (u.p.Gam + u.p.Lam) / 4 = half u.p / 2 := by unfold Spectrum.half; ring
  refine ⟨⟨hs'.meas.retarded.add_const z, hs'.meas.keldysh, hs'.meas.vertex⟩, fun v => ?_, hs'.vertex⟩
  rw [e]
  obtain ⟨a, b⟩ := tiny v
  rw [S.U] at a
  constructor
  · show ‖s'.1.1 v + z - ((u.U / 2 : ℝ) : ℂ)‖ ≤ half u.p / 2
    have e2 : s'.1.1 v + z - ((u.U / 2 : ℝ) : ℂ) = (s'.1.1 v - ((u.U / 2 : ℝ) : ℂ)) + z := by ring
    rw [e2]
    refine (norm_add_le _ _).trans ?_
    linarith
  · show ‖s'.1.2 v - 0‖ ≤ half u.p / 2
    rw [sub_zero]
    linarith

/-- **C172** (parameters). The solutions for two sets of parameters that differ by a little — in the flow parameter, the
hybridization, the level position or the range of the loop integrals — differ by at most as much: the self-energies by
`gap`, the vertices by `gap` times the bound of the vertex over half the width, at every frequency. -/
theorem c172_parameters (S : Same u u') (W : Weakly u bare t) (W' : Weakly u' bare t) (first : Bool) (hartree : SF → ℝ) {s s' : SF × VF}
    (hs : Ball u t s) (hf : iteration first u hartree bare s = s) (hs' : Ball u' t s') (hf' : iteration first u' hartree bare s' = s')
    (hg : gap u u' ≤ half u.p / 4) :
    NearS (gap u u') s.1 s'.1 ∧ NearV (t / half u.p * gap u u') s.2 s'.2 := by
  have h0 : 0 < half u.p := Weak.half_pos W.width
  have t0 := W.pos
  have r0 : 0 < t / half u.p := by positivity
  set z := offset u.p u'.p with hz
  have zl : ‖z‖ ≤ |half u'.p - half u.p| + |u'.p.eps - u.p.eps| := offset_le u.p u'.p
  have zg : ‖z‖ ≤ half u.p / 4 := by
    have := abs_nonneg (u'.Δ - u.Δ)
    unfold gap at hg
    linarith
  have bz : Ball u t (push z s'.1, s'.2) := other_ball S W W' first hartree hs' hf' hg zg
  have b' : Ball u t s' := by
    have := other_ball S W W' first hartree hs' hf' hg (z := 0) (by rw [norm_zero]; positivity)
    have e : (push 0 s'.1, s'.2) = s' := by
      simp only [push, add_zero]
    rwa [e] at this
  have shiftN : Near u t (t / half u.p * ‖z‖) s' (push z s'.1, s'.2) := by
    rw [near_iff t0 W.width]
    refine ⟨fun v => ?_, fun v => ?_, fun h c s α ν => ?_⟩
    · show t / half u.p * ‖s'.1.1 v - (s'.1.1 v + z)‖ ≤ _
      rw [sub_add_cancel_left, norm_neg]
    · show t / half u.p * ‖s'.1.2 v - s'.1.2 v‖ ≤ _
      rw [sub_self, norm_zero, mul_zero]
      positivity
    · show ‖s'.2 h c s α ν - s'.2 h c s α ν‖ ≤ _
      rw [sub_self, norm_zero]
      positivity
  have rng := range_near W first hartree bz u'.Δ
  rw [← iteration_push S W.ph, hf'] at rng
  have key : Near u t (2 * (t / half u.p * ‖z‖ / 2 + t / half u.p * (|u'.Δ - u.Δ| / 2))) s s' := by
    refine near_self t0 W.width (ball_near t0 W.width hs b') fun d n => ?_
    have a := step_near W first hartree hs bz (near_trans n shiftN)
    rw [hf] at a
    refine near_mono t0 W.width (le_of_eq ?_) (near_trans a rng)
    ring
  have fin : Near u t (t / half u.p * gap u u') s s' := by
    refine near_mono t0 W.width ?_ key
    have : 2 * (t / half u.p * ‖z‖ / 2 + t / half u.p * (|u'.Δ - u.Δ| / 2)) = t / half u.p * (‖z‖ + |u'.Δ - u.Δ|) := by ring
    rw [this]
    unfold gap
    exact mul_le_mul_of_nonneg_left (by linarith) r0.le
  rw [near_iff t0 W.width] at fin
  exact ⟨fun v => ⟨le_of_mul_le_mul_left (fin.1 v) r0, le_of_mul_le_mul_left (fin.2.1 v) r0⟩, fin.2.2⟩

theorem scale_same (u : Setup) (Λ Λ' : ℝ) : Same (atScale u Λ) (atScale u Λ') := ⟨rfl, rfl, rfl, rfl⟩

theorem scale_gap (u : Setup) (Λ Λ' : ℝ) : gap (atScale u Λ) (atScale u Λ') = |Λ' - Λ| := by
  have e : ∀ a b c : ℝ, (a + b) / 2 - (a + c) / 2 = (b - c) / 2 := fun a b c => by ring
  have e' : ∀ a b c : ℝ, (b + a) / 2 - (c + a) / 2 = (b - c) / 2 := fun a b c => by ring
  simp only [gap, atScale, Spectrum.half, e, e', sub_self, abs_zero, add_zero, abs_div, abs_two]
  ring

/-- **C172** (flow parameter). The solutions at two scales differ by at most the difference of the scales in the self-energy
and by that difference times `2 t / (Γ + Λ)` in the vertex, if the scales differ by at most an eighth of the width. -/
theorem c172_scale {Λ Λ' : ℝ} (W : Weakly (atScale u Λ) bare t) (W' : Weakly (atScale u Λ') bare t) (first : Bool) (hartree : SF → ℝ)
    {s s' : SF × VF} (hs : Ball (atScale u Λ) t s) (hf : iteration first (atScale u Λ) hartree bare s = s) (hs' : Ball (atScale u Λ') t s')
    (hf' : iteration first (atScale u Λ') hartree bare s' = s') (hg : |Λ' - Λ| ≤ (u.p.Gam + Λ) / 8) :
    NearS |Λ' - Λ| s.1 s'.1 ∧ NearV (2 * t / (u.p.Gam + Λ) * |Λ' - Λ|) s.2 s'.2 := by
  have h := c172_parameters (scale_same u Λ Λ') W W' first hartree hs hf hs' hf' (by
    rw [scale_gap]
    refine hg.trans (le_of_eq ?_)
    simp only [atScale, Spectrum.half]
    ring)
  rw [scale_gap] at h
  refine ⟨h.1, ?_⟩
  have e : t / half (atScale u Λ).p = 2 * t / (u.p.Gam + Λ) := by
    have : 0 < u.p.Gam + Λ := W.width
    simp only [atScale, Spectrum.half]
    field_simp
  rw [← e]
  exact h.2

theorem continuous_of_local {f : ℝ → ℂ} {A : Set ℝ} {Λ : ℝ} {r K : ℝ} (hr : 0 < r) (h : ∀ Λ' ∈ A, |Λ' - Λ| ≤ r → ‖f Λ - f Λ'‖ ≤ K * |Λ' - Λ|) :
    ContinuousWithinAt f A Λ := by
  rw [Metric.continuousWithinAt_iff]
  intro ε hε
  refine ⟨min r (ε / (|K| + 1)), by positivity, fun {Λ'} hA hd => ?_⟩
  rw [Real.dist_eq] at hd
  have h1 := h Λ' hA (hd.le.trans (min_le_left _ _))
  have h2 : |Λ' - Λ| < ε / (|K| + 1) := hd.trans_le (min_le_right _ _)
  rw [lt_div_iff₀ (by positivity)] at h2
  rw [dist_comm, dist_eq_norm]
  refine h1.trans_lt ?_
  have := mul_le_mul_of_nonneg_right (le_abs_self K) (abs_nonneg (Λ' - Λ))
  nlinarith [abs_nonneg (Λ' - Λ)]

/-- **C172** (no jumps). Every value of the self-energy and of the vertex of the solutions is a continuous function of the
flow parameter as long as the coupling is weak. -/
theorem c172_continuous (first : Bool) (hartree : SF → ℝ) (s : ℝ → SF × VF)
    (hs : ∀ Λ, Weakly (atScale u Λ) bare t → Ball (atScale u Λ) t (s Λ) ∧ iteration first (atScale u Λ) hartree bare (s Λ) = s Λ) :
    (∀ v, ContinuousOn (fun Λ => (s Λ).1.1 v) {Λ | Weakly (atScale u Λ) bare t}) ∧
      (∀ v, ContinuousOn (fun Λ => (s Λ).1.2 v) {Λ | Weakly (atScale u Λ) bare t}) ∧
      ∀ h c i α ν, ContinuousOn (fun Λ => (s Λ).2 h c i α ν) {Λ | Weakly (atScale u Λ) bare t} := by
  have key : ∀ Λ, Weakly (atScale u Λ) bare t → ∀ Λ' ∈ {Λ | Weakly (atScale u Λ) bare t}, |Λ' - Λ| ≤ (u.p.Gam + Λ) / 8 → _ :=
    fun Λ W Λ' W' hg => c172_scale W W' first hartree (hs Λ W).1 (hs Λ W).2 (hs Λ' W').1 (hs Λ' W').2 hg
  have pos : ∀ {Λ}, Weakly (atScale u Λ) bare t → 0 < (u.p.Gam + Λ) / 8 := fun {Λ} W => by
    have : 0 < u.p.Gam + Λ := W.width
    positivity
  refine ⟨fun v Λ W => ?_, fun v Λ W => ?_, fun h c i α ν Λ W => ?_⟩
  · exact continuous_of_local (K := 1) (pos W) fun Λ' W' hg => by rw [one_mul]; exact ((key Λ W Λ' W' hg).1 v).1
  · exact continuous_of_local (K := 1) (pos W) fun Λ' W' hg => by rw [one_mul]; exact ((key Λ W Λ' W' hg).1 v).2
  · exact continuous_of_local (pos W) fun Λ' W' hg => (key Λ W Λ' W' hg).2 h c i α ν

/-- **C172** (next scale). Started from the solution at a nearby scale the iteration converges to the solution at the new
scale; the distance in the vertex is at most `2 t / (Γ + Λ') |Λ - Λ'|` from the start. -/
theorem c172_next {Λ Λ' : ℝ} (W : Weakly (atScale u Λ) bare t) (W' : Weakly (atScale u Λ') bare t) (first : Bool) (hartree : SF → ℝ)
    {s s' : SF × VF} (hs : Ball (atScale u Λ) t s) (hf : iteration first (atScale u Λ) hartree bare s = s) (hs' : Ball (atScale u Λ') t s')
    (hf' : iteration first (atScale u Λ') hartree bare s' = s') (hg : |Λ - Λ'| ≤ (u.p.Gam + Λ') / 8) {m : ℝ} (h0 : 0 ≤ m) (h1 : m ≤ 1) (k : ℕ) :
    Near (atScale u Λ') t ((1 - m / 2) ^ k * (2 * t / (u.p.Gam + Λ') * |Λ - Λ'|)) ((mixed (iteration first (atScale u Λ') hartree bare) m)^[k] s) s' := by
  have n := c172_scale W' W first hartree hs' hf' hs hf hg
  have pos : 0 < u.p.Gam + Λ' := W'.width
  have b : Ball (atScale u Λ') t s := by
    have := other_ball (scale_same u Λ' Λ) W' W first hartree hs hf (by
      rw [scale_gap]
      refine hg.trans (le_of_eq ?_)
      simp only [atScale, Spectrum.half]
      ring) (z := 0) (by rw [norm_zero]; have := Weak.half_pos W'.width; linarith)
    have e : (push 0 s.1, s.2) = s := by simp only [push, add_zero]
    rwa [e] at this
  refine (c169_rate W' first hartree hs' hf' h0 h1 b (near_symm ⟨fun v => ?_, n.2⟩) k).2
  have e : 2 * t / (u.p.Gam + Λ') * |Λ - Λ'| * (((atScale u Λ').p.Gam + (atScale u Λ').p.Lam) / 2) / t = |Λ - Λ'| := by
    have t0 := W'.pos
    simp only [atScale]
    field_simp
  rw [e]
  exact n.1 v

/-! ### Non-vacuity -/

theorem example_scales {Λ : ℝ} (hΛ : 3 ≤ Λ) : Weakly (atScale example_u Λ) (bareK (-(1 / 10 ^ 7 / 2))) (1 / 10 ^ 7 / 2) := by
  have W := example_weakly
  refine ⟨rfl, ?_, W.pos, ?_, W.measurable, W.small⟩
  · show 0 < (1 : ℝ) + Λ
    linarith
  · show 3 * 10 ^ 7 * (1 / 10 ^ 7 / 2 : ℝ) ≤ (1 + Λ) / 2
    norm_num
    linarith

/-- Solutions at all scales above three, their dependence on the scale and a solver with errors. -/
example : ∃ s : ℝ → SF × VF, (∀ Λ ≥ 3, Ball (atScale example_u Λ) (1 / 10 ^ 7 / 2) (s Λ) ∧
      iteration true (atScale example_u Λ) (fun _ => 0) (bareK (-(1 / 10 ^ 7 / 2))) (s Λ) = s Λ) ∧
    NearS (1 / 4) (s 3).1 (s (13 / 4)).1 ∧
    ∀ n, Near (atScale example_u 3) (1 / 10 ^ 7 / 2) ((1 - 1 / 2) ^ n * (2 * (1 / 10 ^ 7 / 2)) + 2 * (2 * (1 / 10 ^ 7 / 2)) / 1)
      ((fun _ => (Pt2.bareSE (1 / 10 ^ 7), (0 : VF))) n) (s 3) := by
  have ex : ∀ Λ : ℝ, ∃ s, 3 ≤ Λ → Ball (atScale example_u Λ) (1 / 10 ^ 7 / 2) s ∧
      iteration true (atScale example_u Λ) (fun _ => 0) (bareK (-(1 / 10 ^ 7 / 2))) s = s := fun Λ => by
    by_cases h : 3 ≤ Λ
    · obtain ⟨s, h1, h2, -⟩ := c169_solution (example_scales h) true fun _ => 0
      exact ⟨s, fun _ => ⟨h1, h2⟩⟩
    · exact ⟨0, fun h' => absurd h' h⟩
  choose s hs using ex
  have W3 := example_scales (le_refl (3 : ℝ))
  have W4 := example_scales (show (3 : ℝ) ≤ 13 / 4 by norm_num)
  refine ⟨s, fun Λ h => hs Λ h, ?_, fun n => ?_⟩
  · have := (c172_scale W3 W4 true (fun _ => 0) (hs 3 le_rfl).1 (hs 3 le_rfl).2 (hs (13 / 4) (by norm_num)).1 (hs (13 / 4) (by norm_num)).2 (by
      show |(13 / 4 : ℝ) - 3| ≤ (1 + 3) / 8
      norm_num [abs_of_pos])).1
    have e : |(13 / 4 : ℝ) - 3| = 1 / 4 := by norm_num [abs_of_pos]
    rwa [e] at this
  · have b : Ball (atScale example_u 3) (1 / 10 ^ 7 / 2) (Pt2.bareSE (1 / 10 ^ 7), (0 : VF)) := bare_ball W3
    have hs3 := hs 3 le_rfl
    refine c172_errors W3 true (fun _ => 0) hs3.1 hs3.2 one_pos le_rfl (fun _ => b) (fun n => ?_) (ball_near W3.pos W3.width b hs3.1) n
    exact ball_near W3.pos W3.width b (mixed_ball zero_le_one le_rfl b (step_ball W3 true _ b))

end Verif.Robust
