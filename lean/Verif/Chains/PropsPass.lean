import Verif.Chains.Sum
import Verif.MfRG.Props

/-! # C177: the loops and the flow of the code, with the diagrams of the code, follow the parquet vertex -/
namespace Verif.Chains
open Verif.Heredity Verif.Invariant Verif.Propagator MeasureTheory Filter Topology
open Verif.Multiloop (Known)
open Verif.ODE Verif.Accuracy
open Keldysh (Ch)
open Verif.Sde.Limit (bareK)

/-- No tolerance ends the sum over loop orders before the configured number of loops. -/
structure Untruncated (o : Invariant.Open) (cfg : MfRG.Cfg) : Prop where
  loops : 1 ≤ cfg.nloops
  tolAbs : cfg.tolAbs ≤ 0
  tolRel : cfg.tolRel ≤ 0
  absV : ∀ V x, o.absV V = some x → 0 ≤ x
  relV : ∀ V W x, o.relV V W = some x → 0 ≤ x

/-- The vertex part of the right-hand side of the code at scale `l` for the vertex `V`, with the self-energy and its derivative given. -/
noncomputable def codeRhs (o : Invariant.Open) (Δ : ℝ → ℝ) (p : Par) (w : ℝ) (σ dσ : ℝ → SF) (cfg : MfRG.Cfg) (V : VF) (l : ℝ) : VF :=
  (MfRG.vertexPass (Invariant.eqs o (Δ l) (scale p l) (bareK w) (σ l) V) cfg (dσ l)).1

theorem Untruncated.pass {o : Invariant.Open} {cfg : MfRG.Cfg} (H : Untruncated o cfg) (Δ : ℝ) (p : Par) (bare : VF) (σ dσ : SF) (V : VF) :
    (MfRG.vertexPass (Invariant.eqs o Δ p bare σ V) cfg dσ).1 = MfRG.sumTo (Invariant.eqs o Δ p bare σ V) dσ cfg.nloops.toNat := by
  obtain ⟨m, ⟨-, -, -, h4⟩, h5⟩ := MfRG.c67_pass (Invariant.eqs o Δ p bare σ V) cfg dσ H.loops
  rcases h4 with h4 | ⟨-, ⟨x, hx, hx'⟩ | ⟨x, hx, hx'⟩⟩
  · rw [h5, ← h4, Int.toNat_natCast]
  · exact absurd (H.absV _ _ hx) (not_le.2 (hx'.trans_le H.tolAbs))
  · exact absurd (H.relV _ _ _ hx) (not_le.2 (hx'.trans_le H.tolRel))

/-- A right-hand side on bounded continuous functions with the bubbles of the code. -/
noncomputable def codeKnown (p : Par) (σ dσ : ℝ → SF) (w : ℝ) (l : ℝ) : Known Four ℝ ℝ where
  bare := bareFour w
  red := 0
  pi := bubbles (Invariant.pair (scale p l) (σ l))
  dpi _ := bubbles (Invariant.dpair (scale p l) (σ l) (dσ l))
  loop := 0
  ext := 0
  G := 0
  single := 0
  k2 := 0
  k2b := 0

/-- Norms play no role here. -/
noncomputable def noEqs : MfRG.Eqs (Ch → Four) ℝ := ⟨0, 0, 0, 0, 0, id, 0, fun _ _ => 0, fun _ => none, fun _ _ => none, fun _ => none, fun _ _ => none⟩

section
variable {p : Par} {J : Set ℝ} {σ dσ : ℝ → SF} (F : SelfFamily p J σ dσ)
include F

theorem known_pi (w : ℝ) : ∀ l ∈ J, IsBubble (Invariant.pair (scale p l) (σ l)) (codeKnown p σ dσ w l).pi := fun l hl =>
  bubbles_is (pairs (p := scale p l) (F.pos l hl) (F.retarded l hl))

theorem known_dpi (w : ℝ) : ∀ l ∈ J, IsBubble (Invariant.dpair (scale p l) (σ l) (dσ l)) (Family.dbubble (codeKnown p σ dσ w l) 0) := fun l hl => by
  obtain ⟨N, q⟩ := dpairs F hl
  exact bubbles_is q

/-- The right-hand side of the code and the multiloop sums on bounded continuous functions. -/
theorem code_rhs (o : Invariant.Open) (Δ : ℝ → ℝ) (w : ℝ) {cfg : MfRG.Cfg} (H : Untruncated o cfg) {l : ℝ} (hl : l ∈ J) (T : Ch → Four) :
    codeRhs o Δ p w σ dσ cfg (parts T) l = parts (Family.loops noEqs (codeKnown p σ dσ w) (fun _ => 0) cfg.nloops.toNat T l) := by
  rw [codeRhs, H.pass]
  exact parts_sumTo (k := Family.withState (codeKnown p σ dσ w l) T) (0 : ℝ) rfl (known_pi F w l hl) (known_dpi F w l hl)
    (fun r A B C => c175_chain (p := scale p l) (F.pos l hl) (F.retarded l hl) (known_pi F w l hl) r A B C) o (Δ l) noEqs ⟨rfl, rfl⟩ _

theorem code_scales {w : ℝ} (w0 : w ≠ 0) (hw : ∀ l ∈ J, 3072 * |w| ≤ p.Gam + l) :
    Family.Scales J (codeKnown p σ dσ w) (fun _ => 0) (bareFour w) |w| (1 / (12 * |w|)) :=
  c175_scales F (abs_pos.2 w0) (bareFour_norm w) hw (fun _ _ => rfl) (known_pi F w) (known_dpi F w)

theorem solves {w : ℝ} {red : ℝ → Ch → Four} (hr : ∀ l ∈ J, ‖red l‖ ≤ |w| / 2 ∧ Equations (Invariant.pair (scale p l) (σ l)) (bareFour w) (red l)) :
    Family.Solves J (codeKnown p σ dσ w) (bareFour w) |w| red := fun l hl =>
  ⟨((known_pi F w l hl).parquet _ _).2 (hr l hl).2, (hr l hl).1⟩

/-- **C177** (right-hand side). Let `red` be the solution of the Bethe–Salpeter equations at every scale. It is continuously
differentiable, and the right-hand side the code evaluates for it differs from its derivative, at all frequencies and in all
components, by at most a number that decreases geometrically with the number of loops. -/
theorem c177_rhs (o : Invariant.Open) (Δ : ℝ → ℝ) {w : ℝ} (w0 : w ≠ 0) (hw : ∀ l ∈ J, 3072 * |w| ≤ p.Gam + l) {red : ℝ → Ch → Four}
    (hr : ∀ l ∈ J, ‖red l‖ ≤ |w| / 2 ∧ Equations (Invariant.pair (scale p l) (σ l)) (bareFour w) (red l)) :
    ContDiffOn ℝ 1 red J ∧ ∀ l ∈ J, HasDerivAt red (deriv red l) l ∧ ∀ cfg, Untruncated o cfg → ∀ h c s α ν,
      ‖codeRhs o Δ p w σ dσ cfg (parts (red l)) l h c s α ν - parts (deriv red l) h c s α ν‖ ≤ Real.sqrt (265 / 288) ^ cfg.nloops.toNat * ‖deriv red l‖ := by
  have H := code_scales F w0 hw
  have hs := solves F hr
  obtain ⟨sol, -, hu, hc', -⟩ := Family.c174_solution H
  have hc : ContDiffOn ℝ 1 red J := hc'.congr fun l hl => hu red hs l hl
  refine ⟨hc, fun l hl => ?_⟩
  obtain ⟨d1, d2, -⟩ := Family.c174_derivative noEqs H hs hc hl
  refine ⟨d1, fun cfg hcfg h c s α ν => ?_⟩
  rw [code_rhs F o Δ w hcfg hl]
  refine (parts_sub_le _ _ h c s α ν).trans ?_
  rw [norm_sub_rev]
  exact d2 _

end

/-! ### Steps -/

section
variable {E E' : Type} [AddCommGroup E] [Module ℝ E] [AddCommGroup E'] [Module ℝ E']

theorem getD_map (f : E →ₗ[ℝ] E') (k : List E) (j : ℕ) : (k.map f).getD j 0 = f (k.getD j 0) := by
  rw [List.getD_eq_getElem?_getD, List.getD_eq_getElem?_getD, List.getElem?_map]
  cases k[j]? <;> simp

theorem foldl_map (f : E →ₗ[ℝ] E') (g : ℕ → E) (g' : ℕ → E') (hg : ∀ i, g' i = f (g i)) (l : List ℕ) (y : E) :
    l.foldl (fun s i => s + g' i) (f y) = f (l.foldl (fun s i => s + g i) y) := by
  induction l generalizing y with
  | nil => rfl
  | cons a l ih => rw [List.foldl_cons, List.foldl_cons, hg, ← map_add, ih]

variable {I J : Set ℝ} {fp : FlowParam ℝ} {rhs : E → ℝ → E} {rhs' : E' → ℝ → E'} (f : E →ₗ[ℝ] E')

theorem step_map {T : Tableau} (H : Fit T) (hI : I.OrdConnected) (hm : Set.MapsTo fp.lam I J) (hf : ∀ l ∈ J, ∀ y, rhs' (f y) l = f (rhs y l))
    {t h : ℝ} (ht : t ∈ I) (hh : t + h ∈ I) (y : E) : step T fp rhs' (f y) t h = f (step T fp rhs y t h) := by
  have nodes : ∀ i < T.stages, t + h * (T.getNode i : ℝ) ∈ I := fun i hi => by
    have c0 : (0 : ℝ) ≤ (T.getNode i : ℝ) := by exact_mod_cast H.low i hi
    have c1 : ((T.getNode i : ℚ) : ℝ) ≤ 1 := by exact_mod_cast H.high i hi
    refine hI.uIcc_subset ht hh ?_
    rw [Set.mem_uIcc]
    rcases le_total 0 h with h0 | h0
    · exact Or.inl ⟨by nlinarith, by nlinarith⟩
    · exact Or.inr ⟨by nlinarith, by nlinarith⟩
  have st : ∀ n k, k.length + n ≤ T.stages → stageLoop T fp rhs' (f y) t h n (k.map f) = (stageLoop T fp rhs y t h n k).map f := by
    intro n
    induction n with
    | zero => intro k _; rfl
    | succ n ih =>
      intro k hk
      have e : stageState T (f y) h (k.map f) k.length = f (stageState T y h k k.length) :=
        foldl_map f _ _ (fun i => by rw [getD_map, map_smul]) _ _
      simp only [stageLoop, List.length_map]
      rw [e, hf _ (hm (nodes _ (by omega))), ← map_smul, ← ih _ (by simp only [List.length_append, List.length_singleton]; omega), List.map_append]
      rfl
  have s := st (T.stages - 1) [fp.dlam t • rhs y (fp.lam t)] (by have := H.pos; simp only [List.length_singleton]; omega)
  simp only [List.map_cons, List.map_nil, map_smul, ← hf _ (hm ht)] at s
  simp only [step, rkStep, slopes, combine]
  rw [s, List.length_map]
  exact foldl_map f _ _ (fun i => by rw [getD_map, map_smul]) _ _

theorem walk_map {T : Tableau} (H : Fit T) (hI : I.OrdConnected) (hm : Set.MapsTo fp.lam I J) (hf : ∀ l ∈ J, ∀ y, rhs' (f y) l = f (rhs y l)) (hs : List ℝ) :
    ∀ (n : ℕ) (t : ℝ) (y : E), Inside I t hs → walk T fp rhs' (fun _ => id) n t (f y) hs = f (walk T fp rhs (fun _ => id) n t y hs) := by
  induction hs with
  | nil => intro n t y _; rfl
  | cons h hs ih =>
    intro n t y hi
    have next : t + h ∈ I := by
      cases hs with
      | nil => exact hi.2
      | cons _ _ => exact hi.2.1
    simp only [walk, id]
    rw [step_map f H hI hm hf hi.1 next y]
    exact ih _ _ _ hi.2

end

/-- `parts` as a linear map. -/
noncomputable def partsL : (Ch → Four) →ₗ[ℝ] VF where
  toFun := parts
  map_add' := parts_add
  map_smul' := parts_smul

/-- **C177** (flow). Let the vertex at the start differ little from the solution of the Bethe–Salpeter equations there. However the steps
are chosen, after them the vertex that the Runge–Kutta solver has computed with the right-hand side of the code differs, at all
frequencies and in all components, by at most `ε` from the solution at the scale reached, if there are enough loops and the steps
are small enough. The bounds do not depend on the number of steps or their positions. -/
theorem c177_flow {p : Par} {J : Set ℝ} {σ dσ : ℝ → SF} (F : SelfFamily p J σ dσ) {w : ℝ} (w0 : w ≠ 0) (hw : ∀ l ∈ J, 3072 * |w| ≤ p.Gam + l)
    {red : ℝ → Ch → Four} (hr : ∀ l ∈ J, ‖red l‖ ≤ |w| / 2 ∧ Equations (Invariant.pair (scale p l) (σ l)) (bareFour w) (red l))
    {fp : FlowParam ℝ} {a b Len : ℝ} (L0 : 0 ≤ Len) (hl : ∀ t ∈ Set.Icc a b, HasDerivWithinAt fp.lam (fp.dlam t) (Set.Icc a b) t)
    (hd : ContinuousOn fp.dlam (Set.Icc a b)) (hm : Set.MapsTo fp.lam (Set.Icc a b) J) {ε : ℝ} (ε0 : 0 < ε) :
    ∃ κ > 0, ∃ N : ℕ, ∀ T ∈ tableaux, ∀ (o : Invariant.Open) (Δ : ℝ → ℝ) (cfg : MfRG.Cfg) (t : ℝ) (hs : List ℝ) (start : Ch → Four),
      Untruncated o cfg → (N : ℤ) ≤ cfg.nloops → Inside (Set.Icc a b) t hs → (∀ h ∈ hs, |h| ≤ κ) → length hs ≤ Len → ‖start - red (fp.lam t)‖ ≤ κ →
      ∀ h c s α ν, ‖walk T fp (codeRhs o Δ p w σ dσ cfg) (fun _ => id) 0 t (parts start) hs h c s α ν - parts (red (fp.lam (t + hs.sum))) h c s α ν‖ ≤ ε := by
  obtain ⟨κ, κ0, N, hN⟩ := Family.c174_flow noEqs (code_scales F w0 hw) (solves F hr) L0 hl hd hm ε0
  refine ⟨κ, κ0, N, fun T hT o Δ cfg t hs start hcfg hn hi hh hL hst h c s α ν => ?_⟩
  have e := walk_map (rhs := Family.loops noEqs (codeKnown p σ dσ w) (fun _ => 0) cfg.nloops.toNat) (rhs' := codeRhs o Δ p w σ dσ cfg) partsL
    (fit hT) Set.ordConnected_Icc hm (fun l hl y => code_rhs F o Δ w hcfg hl y) hs 0 t start hi
  have e' : walk T fp (codeRhs o Δ p w σ dσ cfg) (fun _ => id) 0 t (parts start) hs =
    parts (walk T fp (Family.loops noEqs (codeKnown p σ dσ w) (fun _ => 0) cfg.nloops.toNat) (fun _ => id) 0 t start hs) := e
  rw [e']
  refine (parts_sub_le _ _ h c s α ν).trans (hN T hT _ _ 0 t hs start ?_ le_rfl (fun n y _ => by simp) (by simpa using κ0.le) hi hh hL hst)
  exact fun l _ y _ => ⟨cfg.nloops.toNat, by omega, by simpa using κ0.le⟩

/-- The vertex part of the right-hand side of the code is this one: with one or two loops, where the self-energy is not corrected. -/
theorem code_rhs_low (o : Invariant.Open) (Δ : ℝ → ℝ) (p : Par) (w : ℝ) (σ dσ : ℝ → SF) (cfg : MfRG.Cfg) (V : VF) (l : ℝ) (h1 : 1 ≤ cfg.nloops) (h2 : cfg.nloops ≤ 2)
    (hσ : dσ l = (Invariant.eqs o (Δ l) (scale p l) (bareK w) (σ l) V).oneSE) :
    (Invariant.rhs o Δ p (bareK w) cfg (σ l, V) l).2 = codeRhs o Δ p w σ dσ cfg V l := by
  obtain ⟨x, x1, -, x3, -⟩ := MfRG.c67_low_order (Invariant.eqs o (Δ l) (scale p l) (bareK w) (σ l) V) cfg h1 h2
  have e : Invariant.rhs o Δ p (bareK w) cfg (σ l, V) l = (x.sigma, x.vertex) := by
    show (match MfRG.rhs (Invariant.eqs o (Δ l) (scale p l) (bareK w) (σ l) V) cfg with | .ok x => (x.sigma, x.vertex) | .error _ => 0) = _
    rw [x1]
  rw [e]
  show x.vertex = (MfRG.vertexPass _ _ _).1
  obtain ⟨m, hm, hv⟩ := MfRG.c67_pass (Invariant.eqs o (Δ l) (scale p l) (bareK w) (σ l) V) cfg (dσ l) h1
  have : m = cfg.nloops.toNat := by
    obtain ⟨a1, a2, a3, a4⟩ := hm
    rcases a4 with a4 | ⟨a4, _⟩ <;> omega
  rw [hv, x3, hσ, this]

/-- With a constant self-energy and the flow in Λ from 2 to 1 all assumptions are met. -/
example (p : Par) (w : ℝ) (hw : 0 < w) (hp : 3072 * w ≤ p.Gam) : ∃ red : ℝ → Ch → Four,
    (∀ l ∈ Set.Ioi (0 : ℝ), ‖red l‖ ≤ |w| / 2 ∧ Equations (Invariant.pair (scale p l) (fun _ => (w : ℂ), fun _ => 0)) (bareFour w) (red l)) ∧
    ∀ ε > 0, ∃ κ > 0, ∃ N : ℕ, ∀ (o : Invariant.Open) (cfg : MfRG.Cfg), Untruncated o cfg → (N : ℤ) ≤ cfg.nloops →
      ∀ n : ℕ, 0 < n → 1 / (n : ℝ) ≤ κ → ∀ h c s α ν,
      ‖walk rk4 ⟨fun t => 2 - t, fun _ => -1⟩ (codeRhs o (fun _ => 1) p w (fun _ => (fun _ => (w : ℂ), fun _ => 0)) (fun _ => (fun _ => 0, fun _ => 0)) cfg) (fun _ => id) 0 0
        (parts (red 2)) (List.replicate n (1 / n)) h c s α ν - parts (red 1) h c s α ν‖ ≤ ε := by
  have F := constant_family p (Set.Ioi 0) isOpen_Ioi (fun l (hl : 0 < l) => by linarith) (fun _ => (w : ℂ), fun _ => 0) (retarded_const w)
  have hw' : ∀ l ∈ Set.Ioi (0 : ℝ), 3072 * |w| ≤ p.Gam + l := fun l (hl : 0 < l) => by rw [abs_of_pos hw]; linarith
  have ex : ∀ l ∈ Set.Ioi (0 : ℝ), ∃ T : Ch → Four, ‖T‖ ≤ |w| / 2 ∧ Equations (Invariant.pair (scale p l) (fun _ => (w : ℂ), fun _ => 0)) (bareFour w) T := fun l hl => by
    obtain ⟨sol, s1, s2, -⟩ := c175_parquet (p := scale p l) (F.pos l hl) (F.retarded l hl) (bareFour_norm w) (hw' l hl)
    exact ⟨sol, s2, s1⟩
  choose! red hred using ex
  refine ⟨red, hred, fun ε ε0 => ?_⟩
  obtain ⟨κ, κ0, N, hN⟩ := c177_flow F hw.ne' hw' hred (fp := ⟨fun t => 2 - t, fun _ => -1⟩) (a := 0) (b := 1) (Len := 1) zero_le_one
    (fun t _ => ((hasDerivAt_id t).const_sub 2).hasDerivWithinAt) continuousOn_const (fun t ht => by have := ht.2; show (0 : ℝ) < 2 - t; linarith) ε0
  refine ⟨κ, κ0, N, fun o cfg ho hn n n0 hk h c s α ν => ?_⟩
  have n1 : (0 : ℝ) < n := by exact_mod_cast n0
  have ins : ∀ m : ℕ, ∀ t : ℝ, 0 ≤ t → t + m * (1 / n : ℝ) ≤ 1 → Inside (Set.Icc 0 1) t (List.replicate m (1 / n : ℝ)) := by
    intro m
    induction m with
    | zero => intro t t0 t1; exact ⟨t0, by simpa using t1⟩
    | succ m ih =>
      intro t t0 t1
      have q : (0 : ℝ) < 1 / n := by positivity
      have mq : 0 ≤ (m : ℝ) * (1 / n : ℝ) := by positivity
      push_cast at t1
      exact ⟨⟨t0, by nlinarith⟩, ih _ (by linarith) (by linarith)⟩
  have s1 : (List.replicate n (1 / n : ℝ)).sum = 1 := by
    rw [List.sum_replicate, nsmul_eq_mul]; field_simp
  have r := hN rk4 (by simp [tableaux]) o (fun _ => 1) cfg 0 (List.replicate n (1 / n)) (red 2) ho hn (ins n 0 le_rfl (by rw [zero_add]; exact le_of_eq (by field_simp)))
    (fun h hh => by rw [(List.mem_replicate.1 hh).2, abs_of_pos (by positivity)]; exact hk)
    (by
      have : length (List.replicate n (1 / n : ℝ)) = 1 := by
        rw [length, List.map_replicate, abs_of_pos (by positivity), s1]
      exact this.le)
    (by simpa using κ0.le) h c s α ν
  rw [s1] at r
  norm_num at r ⊢
  exact r

end Verif.Chains
