import Verif.Truncated.Poly
import Verif.Accuracy.Props
import Verif.Chains.PropsPass

/-! # C182: the flow with a fixed number of loops, at any interaction strength -/
namespace Verif.Truncated
open Keldysh (Ch)
open Multiloop (Known)
open Verif.Family Verif.Accuracy Verif.ODE
open Set Topology Filter

section
variable {V P S : Type} [NormedAddCommGroup V] [NormedSpace ℝ V] [NormedAddCommGroup P] [NormedSpace ℝ P]
  [NormedAddCommGroup S] [NormedSpace ℝ S]

/-- At all scales in the open set `J` the fully irreducible part is the same, and the bubbles and differentiated bubbles depend
continuously on the scale. Nothing is assumed about their size. -/
structure Varies (J : Set ℝ) (k : ℝ → Known V P S) (σ : ℝ → S) (bare : V) : Prop where
  isOpen : IsOpen J
  irred : ∀ l ∈ J, (k l).bare = bare
  cont : ContinuousOn (fun l => ingr (k l) (σ l)) J

/-- `y` obeys the flow equation with `n` loops between the scales `c` and `d`. -/
def Obeys (E : MfRG.Eqs (Ch → V) S) (k : ℝ → Known V P S) (σ : ℝ → S) (n : ℕ) (c d : ℝ) (y : ℝ → Ch → V) : Prop :=
  ∀ l ∈ Icc c d, HasDerivWithinAt y (loops E k σ n (y l) l) (Icc c d) l

variable {J : Set ℝ} {k : ℝ → Known V P S} {σ : ℝ → S} {bare : V} (H : Varies J k σ bare) (E : MfRG.Eqs (Ch → V) S)
include H

theorem obeys_poly {n : ℕ} {c d : ℝ} (hcd : Icc c d ⊆ J) {y : ℝ → Ch → V} (hy : Obeys E k σ n c d y) :
    ∀ l ∈ Icc c d, HasDerivWithinAt y (poly bare n (ingr (k l) (σ l), y l)) (Icc c d) l := fun l hl => by
  rw [← loops_poly E k σ (H.irred l (hcd hl))]
  exact hy l hl

/-- **C182** (existence). For every number of loops a flow starts from every vertex at every scale. -/
theorem c182_exists [CompleteSpace V] (n : ℕ) {m : ℝ} (hm : m ∈ J) (start : Ch → V) :
    ∃ ε > 0, Icc (m - ε) (m + ε) ⊆ J ∧ ∃ y, y m = start ∧ Obeys E k σ n (m - ε) (m + ε) y := by
  obtain ⟨ε, ε0, h1, y, h2, h3⟩ := exist (contDiff_poly bare n) H.isOpen H.cont hm start
  refine ⟨ε, ε0, h1, y, h2, fun l hl => ?_⟩
  rw [loops_poly E k σ (H.irred l (h1 hl))]
  exact h3 l hl

/-- **C182** (uniqueness). The vertex at one scale determines the flow with `n` loops at all scales it reaches. -/
theorem c182_unique {n : ℕ} {c d : ℝ} (hcd : Icc c d ⊆ J) {y z : ℝ → Ch → V} (hy : Obeys E k σ n c d y) (hz : Obeys E k σ n c d z)
    {m : ℝ} (hm : m ∈ Icc c d) (e : y m = z m) : ∀ l ∈ Icc c d, y l = z l :=
  unique (contDiff_poly bare n) (H.cont.mono hcd) (obeys_poly H E hcd hy) (obeys_poly H E hcd hz) hm e

/-- **C182** (steps). Let `y` obey the flow equation with `n` loops. With any of the tableaux and any parametrisation of Λ that stays
where `y` is known, the vertex the solver computes comes as close to `y` as one likes, uniformly in the number and position of the
steps, if the steps, the error of the right-hand side, the error at the start and the sum of the changes after the steps are small enough. -/
theorem c182_steps {n : ℕ} {c d : ℝ} (hcd : Icc c d ⊆ J) {y : ℝ → Ch → V} (hy : Obeys E k σ n c d y) {p : FlowParam ℝ} {a b Len : ℝ} (L0 : 0 ≤ Len)
    (hl : ∀ t ∈ Icc a b, HasDerivWithinAt p.lam (p.dlam t) (Icc a b) t) (hd : ContinuousOn p.dlam (Icc a b)) (hm : MapsTo p.lam (Icc a b) (Icc c d))
    {ε : ℝ} (ε0 : 0 < ε) :
    ∃ κ > 0, ∀ T ∈ tableaux, ∀ (g : (Ch → V) → ℝ → Ch → V) (post : ℕ → (Ch → V) → Ch → V) (η t : ℝ) (hs : List ℝ) (x : Ch → V),
      (∀ l ∈ Icc c d, ∀ x, ‖g x l - loops E k σ n x l‖ ≤ κ) → 0 ≤ η → (∀ i x, ‖post i x - x‖ ≤ η) → hs.length * η ≤ κ →
      Inside (Icc a b) t hs → (∀ h ∈ hs, |h| ≤ κ) → length hs ≤ Len → ‖x - y (p.lam t)‖ ≤ κ →
      ‖walk T p g post 0 t x hs - y (p.lam (t + hs.sum))‖ ≤ ε := by
  have cy : ContinuousOn y (Icc c d) := fun l hl => (hy l hl).continuousWithinAt
  have cc := H.cont.mono hcd
  have e : ∀ l ∈ Icc c d, ∀ x, loops E k σ n x l = poly bare n (ingr (k l) (σ l), x) := fun l hl x => loops_poly E k σ (H.irred l (hcd hl)) x n
  obtain ⟨r, r0, K, K0, hK⟩ := tube (contDiff_poly bare n) cc cy
  obtain ⟨κ, κ0, h⟩ := c170_convergence (J := Icc c d) (f := loops E k σ n) (y := y) r0 K0 L0 hy
    (((contDiff_poly (m := 1) bare n).continuous.comp_continuousOn (cc.prodMk cy)).congr fun l hl => e l hl _)
    (fun l hl x hx => by rw [e l hl, e l hl]; exact hK l hl x hx) hl hd hm ε0
  refine ⟨κ, κ0, fun T hT g post η t hs x h1 h2 h3 h4 h5 h6 h7 h8 => h T hT g post η t hs x (fun l hl x _ => h1 l hl x) h2 (fun i x _ => h3 i x) h4 h5 h6 h7 h8⟩

end

/-! ### The diagrams of the code -/

theorem continuous_of_deriv {E : Type} [NormedAddCommGroup E] [NormedSpace ℝ E] {f : ℝ → E} {d : E} {l : ℝ} (h : HasDerivAt f d l) (J : Set ℝ) :
    ContinuousWithinAt f J l := h.continuousAt.continuousWithinAt

section
open Verif.Chains Verif.Heredity Verif.Invariant Verif.Propagator

variable {p : Par} {J : Set ℝ} {σ dσ : ℝ → SF} (F : SelfFamily p J σ dσ)
include F

theorem code_varies (w : ℝ) : Varies J (codeKnown p σ dσ w) (fun _ => (0 : ℝ)) (bareFour w) := by
  obtain ⟨dpi, h1, h2⟩ := c175_deriv F
  obtain ⟨-, h4, h5⟩ := h2 _ (known_pi F w)
  have e : ∀ l ∈ J, Family.dbubble (codeKnown p σ dσ w l) 0 = dpi l := fun l hl => (known_dpi F w l hl).unique (h1 l hl)
  refine ⟨F.isOpen, fun _ _ => rfl, ?_⟩
  have c1 : ContinuousOn (fun l => (codeKnown p σ dσ w l).pi) J := continuousOn_pi.2 fun r l hl => continuous_of_deriv (E := Four →L[ℝ] Four →L[ℝ] Four) (h4 l hl r) J
  have c2 : ContinuousOn (fun l => Family.dbubble (codeKnown p σ dσ w l) 0) J := (continuousOn_pi.2 h5).congr fun l hl => e l hl
  exact c1.prodMk (c2.prodMk (continuousOn_const.prodMk continuousOn_const))

/-- One number of a vertex as a continuous function of its reducible parts. -/
noncomputable def entry (h : Bool) (c : Freqs.Ch) (s : Nat) (α : Fin 4 → Bool) (ν : Fin 4 → ℝ) : (Ch → Four) →L[ℝ] ℂ :=
  LinearMap.mkContinuous
    { toFun := fun T => parts T h c s α ν
      map_add' := fun A B => by rw [parts_add]; rfl
      map_smul' := fun x A => by rw [parts_smul]; rfl } 1
    (fun T => by
      have := parts_sub_le T 0 h c s α ν
      have z : parts (0 : Ch → Four) h c s α ν = 0 := by simp only [parts]; split <;> rfl
      rw [z, sub_zero, sub_zero] at this
      simpa using this)

/-- **C182** (code). For every interaction strength, every number of loops and every starting vertex that is bounded and continuous in
the energies there is a family of vertices, starting there, whose values at all frequencies and in all components have the
right-hand side of the code as their derivatives; and the vertex the Runge–Kutta solver computes with the right-hand side of the code tends
to it, uniformly in all frequencies and components, when the steps become small, however they are chosen. -/
theorem c182_code (w : ℝ) (n : ℕ) {m : ℝ} (hm : m ∈ J) (start : Ch → Four) :
    ∃ ρ > 0, Icc (m - ρ) (m + ρ) ⊆ J ∧ ∃ y : ℝ → Ch → Four, y m = start ∧
      (∀ (o : Invariant.Open) (Δ : ℝ → ℝ) (cfg : MfRG.Cfg), Untruncated o cfg → cfg.nloops = n → ∀ l ∈ Icc (m - ρ) (m + ρ), ∀ h c s α ν,
        HasDerivWithinAt (fun l => parts (y l) h c s α ν) (codeRhs o Δ p w σ dσ cfg (parts (y l)) l h c s α ν) (Icc (m - ρ) (m + ρ)) l) ∧
      ∀ {fp : FlowParam ℝ} {a b Len : ℝ}, 0 ≤ Len → (∀ t ∈ Icc a b, HasDerivWithinAt fp.lam (fp.dlam t) (Icc a b) t) → ContinuousOn fp.dlam (Icc a b) →
        MapsTo fp.lam (Icc a b) (Icc (m - ρ) (m + ρ)) → ∀ ε > 0, ∃ κ > 0, ∀ T ∈ tableaux, ∀ (o : Invariant.Open) (Δ : ℝ → ℝ) (cfg : MfRG.Cfg) (t : ℝ) (hs : List ℝ),
        Untruncated o cfg → cfg.nloops = n → Inside (Icc a b) t hs → (∀ h ∈ hs, |h| ≤ κ) → length hs ≤ Len → fp.lam t = m →
        ∀ h c s α ν, ‖walk T fp (codeRhs o Δ p w σ dσ cfg) (fun _ => id) 0 t (parts start) hs h c s α ν - parts (y (fp.lam (t + hs.sum))) h c s α ν‖ ≤ ε := by
  have H := code_varies F w
  obtain ⟨ρ, ρ0, hJ, y, y0, hy⟩ := c182_exists H noEqs n hm start
  have code : ∀ (o : Invariant.Open) (Δ : ℝ → ℝ) (cfg : MfRG.Cfg), Untruncated o cfg → cfg.nloops = n → ∀ l ∈ Icc (m - ρ) (m + ρ), ∀ T : Ch → Four,
      codeRhs o Δ p w σ dσ cfg (parts T) l = parts (loops noEqs (codeKnown p σ dσ w) (fun _ => 0) n T l) := fun o Δ cfg ho hn l hl T => by
    rw [code_rhs F o Δ w ho (hJ hl), hn, Int.toNat_natCast]
  refine ⟨ρ, ρ0, hJ, y, y0, fun o Δ cfg ho hn l hl h c s α ν => ?_, ?_⟩
  · rw [code o Δ cfg ho hn l hl]
    exact (entry h c s α ν).hasFDerivAt.comp_hasDerivWithinAt l (hy l hl)
  · intro fp a b Len L0 hl hd hmap ε ε0
    obtain ⟨κ, κ0, hκ⟩ := c182_steps H noEqs hJ hy L0 hl hd hmap ε0
    refine ⟨κ, κ0, fun T hT o Δ cfg t hs ho hn hi hh hL ht h c s α ν => ?_⟩
    have e := walk_map (rhs := loops noEqs (codeKnown p σ dσ w) (fun _ => 0) n) (rhs' := codeRhs o Δ p w σ dσ cfg) partsL
      (fit hT) Set.ordConnected_Icc hmap (fun l hl y => code o Δ cfg ho hn l hl y) hs 0 t start hi
    have e' : walk T fp (codeRhs o Δ p w σ dσ cfg) (fun _ => id) 0 t (parts start) hs =
      parts (walk T fp (loops noEqs (codeKnown p σ dσ w) (fun _ => 0) n) (fun _ => id) 0 t start hs) := e
    rw [e']
    refine (parts_sub_le _ _ h c s α ν).trans (hκ T hT _ _ 0 t hs start (fun l _ x => by simpa using κ0.le) le_rfl (fun i x => by simp) (by simpa using κ0.le) hi hh hL ?_)
    rw [ht, y0, sub_self, norm_zero]
    exact κ0.le

end

/-- A self-energy, an interaction that is not weak and a number of loops to which all of this applies. -/
example (p : Propagator.Par) (hp : 0 < p.Gam) : ∃ ρ > 0, ∃ y : ℝ → Ch → Chains.Four, y 1 = 0 ∧ Obeys Chains.noEqs
    (Chains.codeKnown p (fun _ => (fun _ => (5 : ℂ), fun _ => 0)) (fun _ => (fun _ => 0, fun _ => 0)) 10) (fun _ => (0 : ℝ)) 3 (1 - ρ) (1 + ρ) y := by
  have F := Chains.constant_family p (Set.Ioi 0) isOpen_Ioi (fun l (hl : 0 < l) => by linarith) (fun _ => ((5 : ℝ) : ℂ), fun _ => 0) (Chains.retarded_const 5)
  obtain ⟨ρ, ρ0, -, y, y0, hy⟩ := c182_exists (code_varies F 10) Chains.noEqs 3 (show (1 : ℝ) ∈ Set.Ioi 0 by norm_num) 0
  refine ⟨ρ, ρ0, y, y0, ?_⟩
  simpa using hy

end Verif.Truncated
