import Verif.Chains.Parts

/-! # C176: the parquet vertex has the symmetries of the code and is in thermal equilibrium, and so is its derivative -/
namespace Verif.Chains
open Verif.Heredity Verif.Invariant Verif.Propagator MeasureTheory Filter Topology
open Keldysh (Ch)
open Verif.Sde.Limit (bareK bareK_good)
open Verif.Causal (damped_of)

section
variable {u : Sde.Setup} {σ : SF} (hp : 0 < u.p.Gam + u.p.Lam) (h : RetardedSE σ.1) {w : ℝ} (hw : 3072 * |w| ≤ u.p.Gam + u.p.Lam)
  {T : Ch → Four} (hT : ‖T‖ ≤ |w| / 2) (hE : Equations (Invariant.pair u.p σ) (bareFour w) T)
include hp h hw hT hE

/-- The solution is the limit of the iteration of the code that starts without reducible vertex. -/
theorem solution_limit : ∃ X : ℕ → Ch → Four, (∀ n, parts (X n) = (Sde.computeBSE u (bareK w) σ)^[n] 0) ∧ Tendsto X atTop (𝓝 T) := by
  obtain ⟨sol, -, -, h3, h4⟩ := c175_parquet hp h (bareFour_norm w) hw
  have e := h3 T hT hE
  subst e
  obtain ⟨pi, b1, -⟩ := c175_bubble hp h
  set s : Bse.Step Four := ⟨bareFour w, pi, 0, 0⟩ with hs
  have m1 : Bse.mixed (Bse.iterate s false) 1 = Bse.iterate s false := by
    funext x; simp [Bse.mixed]
  have r := h4 s b1 rfl 1 one_pos le_rfl 0 (by rw [norm_zero]; positivity)
  rw [m1] at r
  refine ⟨fun n => (Bse.iterate s false)^[n] 0, fun n => ?_, ?_⟩
  · induction n with
    | zero => exact parts_zero
    | succ n ih =>
      dsimp only at ih ⊢
      rw [Function.iterate_succ_apply', Function.iterate_succ_apply', parts_step (u := u) b1 rfl, ih]
  · rw [tendsto_iff_norm_sub_tendsto_zero]
    have lim : Tendsto (fun n : ℕ => (1 - 1 / 12 : ℝ) ^ n * ‖0 - T‖) atTop (𝓝 0) := by
      simpa using (tendsto_pow_atTop_nhds_zero_of_lt_one (r := (1 - 1 / 12 : ℝ)) (by norm_num) (by norm_num)).mul_const ‖0 - T‖
    exact squeeze_zero (fun _ => norm_nonneg _) r lim

/-- **C176** (iteration). The solution of the Bethe–Salpeter equations at weak coupling is a fixed point of `compute_BSE` as the code
computes it, and the values the code's iteration gives, starting without reducible vertex, tend to it at all frequencies. -/
theorem c176_iteration : Sde.computeBSE u (bareK w) σ (parts T) = parts T ∧
    ∀ a c s α ν, Tendsto (fun n => (Sde.computeBSE u (bareK w) σ)^[n] 0 a c s α ν) atTop (𝓝 (parts T a c s α ν)) := by
  obtain ⟨X, x1, x2⟩ := solution_limit hp h hw hT hE
  constructor
  · obtain ⟨pi, b1, -⟩ := c175_bubble hp h
    have f := Bse.c144_solution (⟨bareFour w, pi, 0, 0⟩ : Bse.Step Four) false T ((b1.parquet _ _).2 hE)
    rw [← parts_step (u := u) (s := ⟨bareFour w, pi, 0, 0⟩) b1 rfl, f]
  · intro a c s α ν
    exact (parts_tendsto x2 a c s α ν).congr fun n => by rw [x1]

/-- **C176** (symmetries). The solution has crossing and conjugation symmetry and, with particle-hole symmetry of the level and the
self-energy, particle-hole symmetry, and one half of it determines the other. -/
theorem c176_symmetric (hσ : GoodS u.ph u.p.eps σ) (hmu : u.ph = true → u.p.mu = 0) : GoodV u.ph (parts T) := by
  obtain ⟨X, x1, x2⟩ := solution_limit hp h hw hT hE
  refine goodV_limit x2 fun n => ?_
  rw [x1]
  induction n with
  | zero => exact GoodV.zero
  | succ n ih =>
    rw [Function.iterate_succ_apply']
    exact Sde.c159_bse (bareK_good w u.ph) ih hσ hmu

/-- **C176** (equilibrium). The solution satisfies the Kubo–Martin–Schwinger condition of the temperature and chemical potential of the
leads. -/
theorem c176_equilibrium : Thermal.Equilibrium u.p.T u.p.mu (parts T) := by
  obtain ⟨X, x1, x2⟩ := solution_limit hp h hw hT hE
  refine equilibrium_limit x2 fun n => ?_
  rw [x1]
  have : ∀ n, Thermal.Settled u.p.T u.p.mu ((Sde.computeBSE u (bareK w) σ)^[n] 0) := fun n => by
    induction n with
    | zero => exact Thermal.Settled.zero
    | succ n ih =>
      rw [Function.iterate_succ_apply']
      exact Thermal.c164_bse hp (damped_of h) (Thermal.settled_bare _ _ w) ih
  exact (this n).1

end

/-! ### The derivative -/

theorem quotients {f : ℝ → Ch → Four} {D : Ch → Four} {l : ℝ} (d : HasDerivAt f D l) {J : Set ℝ} (hJ : IsOpen J) (hl : l ∈ J) :
    ∃ t : ℕ → ℝ, (∀ n, l + t n ∈ J) ∧ Tendsto (fun n => (t n)⁻¹ • (f (l + t n) - f l)) atTop (𝓝 D) := by
  have z : Tendsto (fun n : ℕ => 1 / ((n : ℝ) + 1)) atTop (𝓝 0) := tendsto_one_div_add_atTop_nhds_zero_nat
  have z' : Tendsto (fun n : ℕ => l + 1 / ((n : ℝ) + 1)) atTop (𝓝 l) := by simpa using z.const_add l
  obtain ⟨N, hN⟩ := eventually_atTop.1 (z'.eventually (hJ.mem_nhds hl))
  refine ⟨fun n => 1 / (((n + N : ℕ) : ℝ) + 1), fun n => hN _ (by omega), ?_⟩
  have zn : Tendsto (fun n : ℕ => 1 / (((n + N : ℕ) : ℝ) + 1)) atTop (𝓝[≠] 0) := by
    refine tendsto_nhdsWithin_iff.2 ⟨(tendsto_add_atTop_iff_nat N).2 z, Eventually.of_forall fun n => ?_⟩
    have : (0 : ℝ) < 1 / (((n + N : ℕ) : ℝ) + 1) := by positivity
    exact this.ne'
  exact d.tendsto_slope_zero.comp zn

theorem parts_slope (A B : Ch → Four) (r : ℝ) : parts (r • (A - B)) = r • (parts A - parts B) := by
  rw [sub_eq_add_neg, ← neg_one_smul ℝ B, parts_smul, parts_add, parts_smul, neg_one_smul, sub_eq_add_neg]

/-- **C176** (derivative). If the solution at every scale of an open set depends differentiably on the scale, its derivative has
the same symmetries and satisfies the same condition. The derivative is what the right-hand side of the flow converges to (C175). -/
theorem c176_derivative {u : Sde.Setup} {J : Set ℝ} {σ dσ : ℝ → SF} (F : SelfFamily u.p J σ dσ) {w : ℝ} (hw : ∀ l ∈ J, 3072 * |w| ≤ u.p.Gam + l)
    {red : ℝ → Ch → Four} (hr : ∀ l ∈ J, ‖red l‖ ≤ |w| / 2 ∧ Equations (Invariant.pair (scale u.p l) (σ l)) (bareFour w) (red l))
    {l : ℝ} (hl : l ∈ J) {D : Ch → Four} (hD : HasDerivAt red D l) :
    Thermal.Equilibrium u.p.T u.p.mu (parts D) ∧
      ((∀ l ∈ J, GoodS u.ph u.p.eps (σ l)) → (u.ph = true → u.p.mu = 0) → GoodV u.ph (parts D)) := by
  obtain ⟨t, t1, t2⟩ := quotients hD F.isOpen hl
  have eq : ∀ m ∈ J, Thermal.Equilibrium u.p.T u.p.mu (parts (red m)) := fun m hm =>
    c176_equilibrium (u := { u with p := scale u.p m }) (F.pos m hm) (F.retarded m hm) (hw m hm) (hr m hm).1 (hr m hm).2
  refine ⟨equilibrium_limit t2 fun n => ?_, fun hσ hmu => goodV_limit t2 fun n => ?_⟩
  · rw [parts_slope]
    exact ((eq _ (t1 n)).sub (eq l hl)).smul _
  · have g : ∀ m ∈ J, GoodV u.ph (parts (red m)) := fun m hm =>
      c176_symmetric (u := { u with p := scale u.p m }) (F.pos m hm) (F.retarded m hm) (hw m hm) (hr m hm).1 (hr m hm).2 (hσ m hm) hmu
    rw [parts_slope, sub_eq_add_neg, ← neg_one_smul ℝ (parts (red l))]
    exact GoodV.smul _ (GoodV.add (g _ (t1 n)) (GoodV.smul _ (g l hl)))

/-- With the level at minus half the interaction and the Hartree self-energy there is such a solution, and it has all symmetries. -/
example (p : Par) (hp : 0 < p.Gam + p.Lam) (U : ℝ) (hU : 3072 * |-(U / 2)| ≤ p.Gam + p.Lam) (he : p.eps = -(U / 2)) (hmu : p.mu = 0) : ∃ sol : Ch → Four,
    Equations (Invariant.pair p (fun _ => (U / 2 : ℝ), fun _ => 0)) (bareFour (-(U / 2))) sol ∧ GoodV true (parts sol) ∧ Thermal.Equilibrium p.T 0 (parts sol) := by
  obtain ⟨sol, h1, h2, -⟩ := c175_parquet (σ := (fun _ => ((U / 2 : ℝ) : ℂ), fun _ => 0)) hp (retarded_const _) (bareFour_norm (-(U / 2))) hU
  refine ⟨sol, h1, ?_, ?_⟩
  · refine c176_symmetric (u := ⟨true, U, 0, (0, 0), p⟩) hp (retarded_const _) hU h2 h1 ⟨fun v => by simp, fun _ v => ⟨?_, by simp⟩⟩ fun _ => hmu
    show ((U / 2 : ℝ) : ℂ) = -star ((U / 2 : ℝ) : ℂ) - 2 * ((p.eps : ℝ) : ℂ)
    rw [he]; simp; ring
  · rw [← hmu]
    exact c176_equilibrium (u := ⟨true, U, 0, (0, 0), p⟩) hp (retarded_const _) hU h2 h1

end Verif.Chains
