import Verif.Truncated.Extend
import Verif.Truncated.Props

/-! # C182, continued: a flow ends early only by growing without bound -/
namespace Verif.Truncated
open Keldysh (Ch)
open Multiloop (Known others total sides middle)
open Verif.Family
open Set Topology Filter

variable {V P S : Type} [NormedAddCommGroup V] [NormedSpace ℝ V] [NormedAddCommGroup P] [NormedSpace ℝ P]
  [NormedAddCommGroup S] [NormedSpace ℝ S]

theorem tame_others {T : Ingr V × (Ch → V) → Ch → V} (hT : ∀ r, Tame fun z => T z r) (r : Ch) : Tame fun z => others r (T z) := by
  cases r <;> exact (hT _).add (hT _)

theorem tame_full (bare : V) : Tame fun z : Ingr V × (Ch → V) => (known bare z).full := by
  have p : ∀ r, Tame fun z : Ingr V × (Ch → V) => z.2 r := fun r => Tame.id.snd.eval r
  exact (Tame.const bare).add (((p .a).add (p .p)).add (p .t))

theorem tame_poly (bare : V) (n : ℕ) : Tame (poly bare n) := by
  have pi : ∀ r, Tame fun z : Ingr V × (Ch → V) => z.1.1 r := fun r => Tame.id.fst.fst.eval r
  have dpi : ∀ r, Tame fun z : Ingr V × (Ch → V) => z.1.2.1 r := fun r => Tame.id.fst.snd.fst.eval r
  have one : ∀ r, Tame fun z : Ingr V × (Ch → V) => (known bare z).one 0 r := fun r =>
    ((dpi r).apply (tame_full bare)).apply (tame_full bare)
  have left : ∀ T : Ingr V × (Ch → V) → Ch → V, (∀ r, Tame fun z => T z r) → ∀ r, Tame fun z => (known bare z).left (T z) r := fun T hT r =>
    ((pi r).apply (tame_others hT r)).apply (tame_full bare)
  have right : ∀ T : Ingr V × (Ch → V) → Ch → V, (∀ r, Tame fun z => T z r) → ∀ r, Tame fun z => (known bare z).right (T z) r := fun T hT r =>
    ((pi r).apply (tame_full bare)).apply (tame_others hT r)
  have k2 : Tame fun z : Ingr V × (Ch → V) => z.1.2.2.1 := Tame.id.fst.snd.snd.fst
  have k2b : Tame fun z : Ingr V × (Ch → V) => z.1.2.2.2 := Tame.id.fst.snd.snd.snd
  have mid : ∀ T : Ingr V × (Ch → V) → Ch → V, (∀ r, Tame fun z => T z r) → ∀ r, Tame fun z => middle (known bare z) (T z) r := fun T hT r => by
    have cr : Tame fun z => (known bare z).centralRight ((known bare z).left (T z)) r := ((pi r).apply (tame_full bare)).apply (left T hT r)
    have cl : Tame fun z => (known bare z).centralLeft ((known bare z).right (T z)) r := ((pi r).apply (right T hT r)).apply (tame_full bare)
    have cl' := (cl.sub (k2.apply cl)).add (k2.apply cr)
    have cr' := (cr.sub (k2b.apply cr)).add (k2b.apply cl')
    exact (cr'.add cl').smul 0.5
  have key : ∀ n, (∀ r, Tame fun z => poly bare n z r) ∧ ∀ r, Tame fun z => poly bare (n + 1) z r := by
    intro n
    induction n with
    | zero => exact ⟨fun r => Tame.const 0, one⟩
    | succ n ih => exact ⟨ih.2, fun r => ((one r).add ((left _ ih.2 r).add (right _ ih.2 r))).add (mid _ ih.1 r)⟩
  exact Tame.pi (key n).1

/-- **C182** (continuation, upwards). If the flow with `n` loops from `start` at the scale `c` exceeds the bound `R` at no scale up to `d` to
which it can be followed, it can be followed to `d`. -/
theorem c182_continues_up [CompleteSpace V] {J : Set ℝ} {k : ℝ → Known V P S} {σ : ℝ → S} {bare : V} (H : Varies J k σ bare) (E : MfRG.Eqs (Ch → V) S)
    (n : ℕ) {c d : ℝ} (h : c ≤ d) (hcd : Icc c d ⊆ J) (start : Ch → V) {R : ℝ}
    (hR : ∀ l ∈ Icc c d, ∀ y, y c = start → Obeys E k σ n c l y → ‖y l‖ ≤ R) : ∃ y, y c = start ∧ Obeys E k σ n c d y := by
  have eq : ∀ l ∈ Icc c d, ∀ y, Sol (poly bare n) (fun l => ingr (k l) (σ l)) c l y ↔ Obeys E k σ n c l y := fun l hl y => by
    refine forall₂_congr fun x hx => ?_
    rw [loops_poly E k σ (H.irred x (hcd ⟨hx.1, hx.2.trans hl.2⟩))]
  obtain ⟨y, y0, hy⟩ := continues (tame_poly bare n) (contDiff_poly (m := 1) bare n).continuous h (H.cont.mono hcd) start
    (fun l hl y y0 hy => hR l hl y y0 ((eq l hl y).1 hy))
  exact ⟨y, y0, (eq d ⟨h, le_rfl⟩ y).1 hy⟩

theorem reflect {E : Type} [NormedAddCommGroup E] [NormedSpace ℝ E] {y : ℝ → E} {f : ℝ → E} {a b : ℝ}
    (h : ∀ l ∈ Icc a b, HasDerivWithinAt y (f l) (Icc a b) l) : ∀ l ∈ Icc (-b) (-a), HasDerivWithinAt (fun x => y (-x)) (-f (-l)) (Icc (-b) (-a)) l := fun l hl => by
  have m : MapsTo (fun x : ℝ => -x) (Icc (-b) (-a)) (Icc a b) := fun x hx => ⟨by linarith [hx.2], by linarith [hx.1]⟩
  have := (h (-l) (m hl)).scomp l (hasDerivAt_neg l).hasDerivWithinAt m
  simp only [neg_smul, one_smul] at this
  exact this

/-- **C182** (continuation, downwards, the direction of the calculations). If the flow with `n` loops from `start` at the scale `d` exceeds the
bound `R` at no scale down to `c` to which it can be followed, it can be followed to `c`. -/
theorem c182_continues [CompleteSpace V] {J : Set ℝ} {k : ℝ → Known V P S} {σ : ℝ → S} {bare : V} (H : Varies J k σ bare) (E : MfRG.Eqs (Ch → V) S)
    (n : ℕ) {c d : ℝ} (h : c ≤ d) (hcd : Icc c d ⊆ J) (start : Ch → V) {R : ℝ}
    (hR : ∀ l ∈ Icc c d, ∀ y, y d = start → Obeys E k σ n l d y → ‖y l‖ ≤ R) : ∃ y, y d = start ∧ Obeys E k σ n c d y := by
  have m : MapsTo (fun x : ℝ => -x) (Icc (-d) (-c)) (Icc c d) := fun x hx => ⟨by linarith [hx.2], by linarith [hx.1]⟩
  have conv : ∀ l ∈ Icc c d, ∀ y : ℝ → Ch → V, Sol (fun z => -poly bare n z) (fun l => ingr (k (-l)) (σ (-l))) (-d) (-l) y → Obeys E k σ n l d fun x => y (-x) := fun l hl y hy x hx => by
    have := reflect (f := fun l => -poly bare n (ingr (k (-l)) (σ (-l)), y l)) hy x (by rw [neg_neg, neg_neg]; exact hx)
    simp only [neg_neg] at this
    rw [loops_poly E k σ (H.irred x (hcd ⟨hl.1.trans hx.1, hx.2⟩))]
    exact this
  obtain ⟨y, y0, hy⟩ := continues (G := fun z => -poly bare n z) (c := fun l => ingr (k (-l)) (σ (-l))) (a := -d) (b := -c) (R := R) (tame_poly bare n).neg
    (contDiff_poly (m := 1) bare n).continuous.neg (by linarith) ((H.cont.mono hcd).comp continuousOn_neg m) start
    (fun l hl y y0 hy => by
      have := hR (-l) (m hl) (fun x => y (-x)) y0 (conv (-l) (m hl) y (by rwa [neg_neg]))
      simpa using this)
  exact ⟨fun x => y (-x), y0, conv c ⟨le_rfl, h⟩ y hy⟩

open Verif.Chains Verif.Heredity Verif.Invariant Verif.Propagator in
/-- **C182** (code, how far the flow reaches). From every starting vertex at the scale `d`, at every interaction strength and with every number of
loops, either there is a family of vertices down to the scale `c` whose derivatives are the right-hand side of the code, or the flow diverges:
for every bound it reaches a scale above `c` at which it is larger. -/
theorem c182_diverges {p : Par} {J : Set ℝ} {σ dσ : ℝ → SF} (F : SelfFamily p J σ dσ) (w : ℝ) (n : ℕ) {c d : ℝ} (h : c ≤ d) (hcd : Icc c d ⊆ J)
    (start : Ch → Four) :
    (∃ y : ℝ → Ch → Four, y d = start ∧ ∀ (o : Invariant.Open) (Δ : ℝ → ℝ) (cfg : MfRG.Cfg), Untruncated o cfg → cfg.nloops = n → ∀ l ∈ Icc c d, ∀ h c' s α ν,
        HasDerivWithinAt (fun l => parts (y l) h c' s α ν) (codeRhs o Δ p w σ dσ cfg (parts (y l)) l h c' s α ν) (Icc c d) l) ∨
    ∀ R : ℝ, ∃ l ∈ Icc c d, ∃ y : ℝ → Ch → Four, y d = start ∧ R < ‖y l‖ ∧ ∀ (o : Invariant.Open) (Δ : ℝ → ℝ) (cfg : MfRG.Cfg), Untruncated o cfg →
        cfg.nloops = n → ∀ x ∈ Icc l d, ∀ h c' s α ν,
        HasDerivWithinAt (fun l => parts (y l) h c' s α ν) (codeRhs o Δ p w σ dσ cfg (parts (y x)) x h c' s α ν) (Icc l d) x := by
  have H := code_varies F w
  have code : ∀ l ∈ Icc c d, ∀ y, Obeys noEqs (codeKnown p σ dσ w) (fun _ => (0 : ℝ)) n l d y → ∀ (o : Invariant.Open) (Δ : ℝ → ℝ) (cfg : MfRG.Cfg), Untruncated o cfg →
      cfg.nloops = n → ∀ x ∈ Icc l d, ∀ h c' s α ν,
      HasDerivWithinAt (fun l => parts (y l) h c' s α ν) (codeRhs o Δ p w σ dσ cfg (parts (y x)) x h c' s α ν) (Icc l d) x := by
    intro l hl y hy o Δ cfg ho hn x hx h c' s α ν
    rw [code_rhs F o Δ w ho (hcd ⟨hl.1.trans hx.1, hx.2⟩), hn, Int.toNat_natCast]
    exact (entry h c' s α ν).hasFDerivAt.comp_hasDerivWithinAt x (hy x hx)
  by_cases b : ∃ R : ℝ, ∀ l ∈ Icc c d, ∀ y, y d = start → Obeys noEqs (codeKnown p σ dσ w) (fun _ => (0 : ℝ)) n l d y → ‖y l‖ ≤ R
  · obtain ⟨R, hR⟩ := b
    obtain ⟨y, y0, hy⟩ := c182_continues H noEqs n h hcd start hR
    exact Or.inl ⟨y, y0, code c ⟨le_rfl, h⟩ y hy⟩
  · push Not at b
    refine Or.inr fun R => ?_
    obtain ⟨l, hl, y, y0, hy, big⟩ := b R
    exact ⟨l, hl, y, y0, big, code l hl y hy⟩

/-- A flow to which the criterion applies: with no loops the vertex stays where it starts. -/
example (p : Propagator.Par) (hp : 0 < p.Gam) : ∃ y : ℝ → Ch → Chains.Four, y 2 = 0 ∧ Obeys Chains.noEqs
    (Chains.codeKnown p (fun _ => (fun _ => (5 : ℂ), fun _ => 0)) (fun _ => (fun _ => 0, fun _ => 0)) 10) (fun _ => (0 : ℝ)) 0 1 2 y := by
  have F := Chains.constant_family p (Set.Ioi 0) isOpen_Ioi (fun l (hl : 0 < l) => by linarith) (fun _ => ((5 : ℝ) : ℂ), fun _ => 0) (Chains.retarded_const 5)
  have sub : ∀ l : ℝ, 1 ≤ l → Icc l 2 ⊆ Set.Ioi (0 : ℝ) := fun l h x hx => by have := hx.1; show 0 < x; linarith
  have H := code_varies F 10
  have zero : ∀ l : ℝ, 1 ≤ l → Obeys Chains.noEqs (Chains.codeKnown p (fun _ => (fun _ => ((5 : ℝ) : ℂ), fun _ => 0)) (fun _ => (fun _ => 0, fun _ => 0)) 10) (fun _ => (0 : ℝ)) 0 l 2 fun _ => 0 := by
    intro l h x hx
    rw [loops_poly Chains.noEqs _ _ (H.irred x (sub l h hx))]
    exact hasDerivWithinAt_const _ _ _
  have := c182_continues (R := 0) H Chains.noEqs 0 (show (1 : ℝ) ≤ 2 by norm_num) (sub 1 le_rfl) 0 (fun l hl y y0 hy => by
    rw [c182_unique H Chains.noEqs (sub l hl.1) hy (zero l hl.1) ⟨hl.2, le_rfl⟩ y0 l ⟨le_rfl, hl.2⟩, norm_zero])
  simpa using this

end Verif.Truncated
