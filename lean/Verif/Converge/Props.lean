import Verif.Converge.Fixed
import Verif.Pt2.Model
import Verif.Sde.SpecLimit

/-! # C169: at weak coupling the parquet equations at real frequencies have one solution, and the iteration finds it -/
namespace Verif.Converge
open Verif.Symmetries Verif.Heredity Verif.Propagator Verif.Weak Verif.Sde MeasureTheory Filter Topology
open Verif.Invariant (VF SF bub pair)
open Verif.Parquet (Problem plainMixing solve)
open Verif.Spectrum (half)
open Verif.Freqs (Ch)

variable {u : Setup} {bare : VF} {t : ℝ}

/-- **C169** (one iteration). For a weak bare vertex an iteration keeps the self-energy within a quarter of the width of its
Hartree value and the vertex below the bound, at all frequencies, and it halves the distance between two states, for both
versions of the Schwinger–Dyson equation and for every range of the loop integrals. -/
theorem c169_contraction (W : Weakly u bare t) (first : Bool) (hartree : SF → ℝ) {y y' : SF × VF} (h : Ball u t y) (h' : Ball u t y')
    {d : ℝ} (n : Near u t d y y') : Ball u t (iteration first u hartree bare y) ∧
      Near u t (d / 2) (iteration first u hartree bare y) (iteration first u hartree bare y') :=
  ⟨step_ball W first hartree h, step_near W first hartree h h' n⟩

/-- The state the solver starts from without perturbation theory. -/
theorem bare_ball (W : Weakly u bare t) : Ball u t (Pt2.bareSE u.U, 0) := by
  have := W.width
  refine ⟨⟨measurable_const, measurable_const, fun _ _ _ _ => measurable_const⟩, fun v => ?_, fun _ _ _ _ _ => by simpa using W.pos.le⟩
  simp only [Pt2.bareSE, sub_self, norm_zero]
  exact ⟨by positivity, by positivity⟩

/-- **C169** (solution). For a weak bare vertex the parquet equations have exactly one solution whose vertex is bounded by
`t` and whose self-energy is within a quarter of the width of its Hartree value. -/
theorem c169_solution (W : Weakly u bare t) (first : Bool) (hartree : SF → ℝ) :
    ∃ s, Ball u t s ∧ iteration first u hartree bare s = s ∧ ∀ y, Ball u t y → iteration first u hartree bare y = y → y = s := by
  set f := iteration first u hartree bare with hf
  set x : ℕ → SF × VF := fun n => f^[n] (Pt2.bareSE u.U, 0) with hx
  have xs : ∀ n, x (n + 1) = f (x n) := fun n => Function.iterate_succ_apply' f n _
  have xb : ∀ n, Ball u t (x n) := fun n => by
    induction n with
    | zero => exact bare_ball W
    | succ n ih => rw [xs]; exact step_ball W first hartree ih
  have xn : ∀ n, Near u t (4 * t / 2 / 2 ^ n) (x n) (x (n + 1)) := fun n => by
    induction n with
    | zero =>
      have e : 4 * t / 2 / 2 ^ 0 = 2 * t := by ring
      rw [e]
      exact ball_near W.pos W.width (xb 0) (xb 1)
    | succ n ih =>
      have := step_near W first hartree (xb n) (xb (n + 1)) ih
      have e : 4 * t / 2 / 2 ^ (n + 1) = 4 * t / 2 / 2 ^ n / 2 := by rw [pow_succ]; field_simp
      rw [e, xs (n + 1), xs n]
      rw [xs n] at this
      exact this
  obtain ⟨s, sb, sn, -, -, -⟩ := limit_exists xb xn
  have small : ∀ {K ε : ℝ}, 0 < ε → ∃ n : ℕ, K / 2 ^ n ≤ ε := fun {K ε} hε => by
    obtain ⟨n, hn⟩ := pow_unbounded_of_one_lt (K / ε) (one_lt_two (α := ℝ))
    refine ⟨n, ?_⟩
    rw [div_lt_iff₀ hε] at hn
    rw [div_le_iff₀ (by positivity)]
    linarith
  have mono : ∀ {d d' : ℝ} {a b : SF × VF}, d ≤ d' → Near u t d a b → Near u t d' a b := fun {d d' a b} l n => by
    rw [near_iff W.pos W.width] at n ⊢
    exact ⟨fun v => (n.1 v).trans l, fun v => (n.2.1 v).trans l, fun h c s α ν => (n.2.2 h c s α ν).trans l⟩
  have sf : f s = s := by
    refine near_eq W.pos W.width fun ε hε => ?_
    obtain ⟨n, hn⟩ := small (K := 4 * t) hε
    have a := step_near W first hartree sb (xb n) (near_symm (sn n))
    have b := sn (n + 1)
    rw [xs] at b
    refine mono ?_ (near_trans a b)
    have e : 4 * t / 2 ^ n / 2 + 4 * t / 2 ^ (n + 1) = 4 * t / 2 ^ n := by rw [pow_succ]; field_simp; ring
    rw [e]
    exact hn
  refine ⟨s, sb, sf, fun y yb yf => ?_⟩
  · refine near_eq W.pos W.width fun ε hε => ?_
    obtain ⟨n, hn⟩ := small (K := 2 * t) hε
    refine mono hn ?_
    clear hn
    induction n with
    | zero => simpa using ball_near W.pos W.width yb sb
    | succ n ih =>
      have := step_near W first hartree yb sb ih
      rw [← hf, yf, sf] at this
      have e : 2 * t / 2 ^ (n + 1) = 2 * t / 2 ^ n / 2 := by rw [pow_succ]; field_simp
      rwa [e]

/-- **C169** (rate). From every such state the iteration with mixing ratio `m` approaches the solution: after `n` iterations
the distance has shrunk by the factor `(1 - m/2) ^ n`. -/
theorem c169_rate (W : Weakly u bare t) (first : Bool) (hartree : SF → ℝ) {s : SF × VF} (hs : Ball u t s)
    (hfix : iteration first u hartree bare s = s) {m : ℝ} (h0 : 0 ≤ m) (h1 : m ≤ 1) {y : SF × VF} (hy : Ball u t y) {d : ℝ} (n : Near u t d y s) (k : ℕ) :
    Ball u t ((mixed (iteration first u hartree bare) m)^[k] y) ∧
      Near u t ((1 - m / 2) ^ k * d) ((mixed (iteration first u hartree bare) m)^[k] y) s := by
  have ms : mixed (iteration first u hartree bare) m s = s := by
    unfold mixed
    rw [hfix, ← add_smul]
    simp
  induction k with
  | zero => simpa using ⟨hy, n⟩
  | succ k ih =>
    rw [Function.iterate_succ_apply']
    refine ⟨mixed_ball h0 h1 ih.1 (step_ball W first hartree ih.1), ?_⟩
    have := mixed_near h0 h1 ih.2 (step_near W first hartree ih.1 hs ih.2)
    rw [ms] at this
    rwa [pow_succ', mul_assoc]

/-- **C169** (when to stop). If an update with mixing ratio `m` changes such a state by at most `ε`, the state differs from
the solution by at most `2 ε / m`. -/
theorem c169_stop (W : Weakly u bare t) (first : Bool) (hartree : SF → ℝ) {s : SF × VF} (hs : Ball u t s)
    (hfix : iteration first u hartree bare s = s) {m : ℝ} (h0 : 0 < m) (h1 : m ≤ 1) {y : SF × VF} (hy : Ball u t y) {ε : ℝ}
    (n : Near u t ε y (mixed (iteration first u hartree bare) m y)) : Near u t (2 * ε / m) y s := by
  have ms : mixed (iteration first u hartree bare) m s = s := by
    unfold mixed
    rw [hfix, ← add_smul]
    simp
  set q : ℝ := 1 - m / 2 with hq
  have q0 : 0 ≤ q := by rw [hq]; linarith
  have q1 : q < 1 := by rw [hq]; linarith
  have mono : ∀ {d d' : ℝ} {a b : SF × VF}, d ≤ d' → Near u t d a b → Near u t d' a b := fun {d d' a b} l n => by
    rw [near_iff W.pos W.width] at n ⊢
    exact ⟨fun v => (n.1 v).trans l, fun v => (n.2.1 v).trans l, fun h c s α ν => (n.2.2 h c s α ν).trans l⟩
  have ε0 := near_nonneg n
  have key : ∀ k : ℕ, Near u t (2 * ε / m + q ^ k * (2 * t)) y s := fun k => by
    induction k with
    | zero => exact mono (by rw [pow_zero, one_mul]; have : 0 ≤ 2 * ε / m := by positivity
                             linarith) (ball_near W.pos W.width hy hs)
    | succ k ih =>
      have := mixed_near h0.le h1 ih (step_near W first hartree hy hs ih)
      rw [ms] at this
      refine mono (le_of_eq ?_) (near_trans n this)
      rw [← hq, pow_succ', hq]
      field_simp
      ring
  have lim : ∀ {x : ℝ}, (∀ k : ℕ, x ≤ 2 * ε / m + q ^ k * (2 * t)) → x ≤ 2 * ε / m := fun {x} h => by
    have z : Tendsto (fun k : ℕ => 2 * ε / m + q ^ k * (2 * t)) atTop (𝓝 (2 * ε / m + 0 * (2 * t))) :=
      ((tendsto_pow_atTop_nhds_zero_of_lt_one q0 q1).mul_const _).const_add _
    have := ge_of_tendsto' z h
    linarith
  rw [near_iff W.pos W.width]
  have key' := fun k => (near_iff W.pos W.width).1 (key k)
  exact ⟨fun v => lim fun k => (key' k).1 v, fun v => lim fun k => (key' k).2.1 v, fun h c s α ν => lim fun k => (key' k).2.2 h c s α ν⟩

/-! ### The solver -/

section
variable (first : Bool) (hartree : SF → ℝ)

/-- The parquet solver with plain mixing; the deviations are quotients of the size of the change and the size of the new
state, parquet_solver.hpp:593-600. -/
noncomputable def solver (u : Setup) (bare : VF) (m : ℝ) (NV NS : SF × VF → ℝ) : Problem (SF × VF) :=
  problem first u hartree bare (plainMixing m) (fun x y => some (NV (x - y) / NV y)) (fun x y => some (NS (x - y) / NS y))

theorem inputs (m : ℝ) (NV NS : SF × VF → ℝ) (acc mix : ℝ) (y : SF × VF) (n : ℕ) :
    Parquet.input (solver first hartree u bare m NV NS) acc mix y n = (mixed (iteration first u hartree bare) m)^[n] y := by
  induction n with
  | zero => rfl
  | succ n ih =>
    rw [Function.iterate_succ_apply', ← ih]
    have e : Parquet.input (solver first hartree u bare m NV NS) acc mix y (n + 1) = plainMixing m
        (Parquet.pushBounded 4 (Parquet.after (solver first hartree u bare m NV NS) acc mix y n).hist
          (iteration first u hartree bare (Parquet.input (solver first hartree u bare m NV NS) acc mix y n), Parquet.input (solver first hartree u bare m NV NS) acc mix y n))
        (Parquet.after (solver first hartree u bare m NV NS) acc mix y n).mix := rfl
    rw [e, plainMixing, Bse.pushBounded_getLast? 4 (by norm_num)]
    rfl

variable {NV NS : SF × VF → ℝ} {m : ℝ}

theorem ratio_small (W : Weakly u bare t) {s : SF × VF} {N : SF × VF → ℝ} (hN : Size u t N) (pos : 0 < N s) {x : ℕ → SF × VF} {q D : ℝ} (q0 : 0 ≤ q) (q1 : q < 1)
    (h : ∀ n, Near u t (q ^ n * D) (x n) s) {acc : ℝ} (hacc : 0 < acc) : ∀ᶠ n in atTop, N (x n - x (n + 1)) / N (x (n + 1)) ≤ acc := by
  obtain ⟨C, hC⟩ := hN.bound
  have zero : ∀ {d : ℝ} {a b : SF × VF}, Near u t d a b → Near u t d (a - b) 0 := fun {d a b} n => by
    rw [near_iff W.pos W.width] at n ⊢
    refine ⟨fun v => ?_, fun v => ?_, fun h c s α ν => ?_⟩
    · simpa using n.1 v
    · simpa using n.2.1 v
    · simpa using n.2.2 h c s α ν
  have lim : Tendsto (fun n : ℕ => C * (q ^ n * D)) atTop (𝓝 0) := by
    have := ((tendsto_pow_atTop_nhds_zero_of_lt_one q0 q1).mul_const D).const_mul C
    simpa using this
  have lim1 := lim.comp (tendsto_add_atTop_nat 1)
  have e1 := lim1.eventually (gt_mem_nhds (show 0 < N s / 2 by positivity))
  have e2 := (lim.add lim1).eventually (gt_mem_nhds (show (0 : ℝ) + 0 < acc * (N s / 2) by simp only [add_zero]; positivity))
  filter_upwards [e1, e2] with n h1 h2
  simp only [Function.comp_apply] at h1 h2
  have a : N (x n - x (n + 1)) ≤ C * (q ^ n * D + q ^ (n + 1) * D) := hC _ _ (zero (near_trans (h n) (near_symm (h (n + 1)))))
  have b : N (s - x (n + 1)) ≤ C * (q ^ (n + 1) * D) := hC _ _ (zero (near_symm (h (n + 1))))
  have c := hN.sub s (x (n + 1))
  have low : N s / 2 ≤ N (x (n + 1)) := by linarith
  rw [div_le_iff₀ (by linarith)]
  have : acc * (N s / 2) ≤ acc * N (x (n + 1)) := mul_le_mul_of_nonneg_left low hacc.le
  linarith

/-- **C169** (solver). For a weak bare vertex the solver without acceleration reports convergence from every such state, for
every positive accuracy and every mixing ratio, once enough iterations are allowed; the state it returns, however it ends, is
such a state again, and it differs from the solution by at most `2 ε / m` if the last update changed its input by `ε`. -/
theorem c169_solver (W : Weakly u bare t) (hV : Size u t NV) (hS : Size u t NS) (h0 : 0 < m) (h1 : m ≤ 1) {y : SF × VF} (hy : Ball u t y) (mix : ℝ) :
    ∃ s, Ball u t s ∧ iteration first u hartree bare s = s ∧
      (0 < NV s → 0 < NS s → ∀ acc > 0, ∃ N0, ∀ Nmax ≥ N0, (solve (solver first hartree u bare m NV NS) acc Nmax mix y).2 = true) ∧
      ∀ acc Nmax, Ball u t (solve (solver first hartree u bare m NV NS) acc Nmax mix y).1.stateIn ∧
        ∃ inp, Ball u t inp ∧ (solve (solver first hartree u bare m NV NS) acc Nmax mix y).1.stateIn = mixed (iteration first u hartree bare) m inp ∧
          ∀ ε, Near u t ε inp (solve (solver first hartree u bare m NV NS) acc Nmax mix y).1.stateIn →
            Near u t (2 * ε / m) inp s ∧ Near u t (2 * ε / m) (solve (solver first hartree u bare m NV NS) acc Nmax mix y).1.stateIn s := by
  obtain ⟨s, sb, sf, -⟩ := c169_solution W first hartree
  have rate := c169_rate W first hartree sb sf h0.le h1 hy (ball_near W.pos W.width hy sb)
  refine ⟨s, sb, sf, fun pV pS acc hacc => ?_, fun acc Nmax => ?_⟩
  · have q0 : 0 ≤ 1 - m / 2 := by linarith
    have q1 : 1 - m / 2 < 1 := by linarith
    obtain ⟨n, hn⟩ := ((ratio_small W hV pV q0 q1 (fun n => (rate n).2) hacc).and (ratio_small W hS pS q0 q1 (fun n => (rate n).2) hacc)).exists
    refine ⟨n + 1, fun Nmax hN => (Bse.loop_passes (solver first hartree u bare m NV NS) acc mix y (Nmax - 1) 0).2 n (Nat.zero_le _) (by omega) ?_⟩
    set P := solver first hartree u bare m NV NS with hP
    show Parquet.isConverged acc (some (NV (Parquet.input P acc mix y n - Parquet.input P acc mix y (n + 1)) / NV (Parquet.input P acc mix y (n + 1))))
      (some (NS (Parquet.input P acc mix y n - Parquet.input P acc mix y (n + 1)) / NS (Parquet.input P acc mix y (n + 1)))) = true
    rw [hP, inputs, inputs]
    simp only [Parquet.isConverged, Parquet.flt, Bool.not_or, Bool.and_eq_true, Bool.not_eq_true', decide_eq_false_iff_not, not_lt]
    exact hn
  · obtain ⟨n, -, -, hn⟩ := (Bse.loop_passes (solver first hartree u bare m NV NS) acc mix y (Nmax - 1) 0).1
    set P := solver first hartree u bare m NV NS with hP
    have hsol : solve P acc Nmax mix y = Parquet.pass P acc (Parquet.after P acc mix y n) := hn
    have hst : (solve P acc Nmax mix y).1.stateIn = (mixed (iteration first u hartree bare) m)^[n + 1] y := by
      rw [hsol]
      exact inputs first hartree m NV NS acc mix y (n + 1)
    have hin : (mixed (iteration first u hartree bare) m)^[n + 1] y = mixed (iteration first u hartree bare) m ((mixed (iteration first u hartree bare) m)^[n] y) :=
      Function.iterate_succ_apply' ..
    rw [hst]
    refine ⟨(rate (n + 1)).1, _, (rate n).1, hin, fun ε hε => ?_⟩
    have hε' := hε
    rw [hin] at hε'
    have a := c169_stop W first hartree sb sf h0 h1 (rate n).1 hε'
    refine ⟨a, ?_⟩
    have ms : mixed (iteration first u hartree bare) m s = s := by
      unfold mixed
      rw [sf, ← add_smul]
      simp
    have b := mixed_near h0.le h1 a (step_near W first hartree (rate n).1 sb a)
    rw [ms, ← hin] at b
    rw [near_iff W.pos W.width] at b ⊢
    have le : (1 - m / 2) * (2 * ε / m) ≤ 2 * ε / m := by
      have := near_nonneg a
      nlinarith
    exact ⟨fun v => (b.1 v).trans le, fun v => (b.2.1 v).trans le, fun h c s α ν => (b.2.2 h c s α ν).trans le⟩

end

end Verif.Converge
