import Verif.Multiloop.PropsCase
import Verif.MfRG.PropsMore

/-! # C140: the corrected self-energy flow -/
namespace Verif.Multiloop

open Keldysh (Ch)
open Filter

variable {V P S : Type} [NormedAddCommGroup V] [NormedSpace ℝ V] [NormedAddCommGroup P] [NormedSpace ℝ P]
  [NormedAddCommGroup S] [NormedSpace ℝ S]

/-- C140: the one-loop term plus the correction is the one and only self-energy derivative that is consistent with its own
propagator derivative: the loop of the vertex irreducible in `t` with the full derivative of the propagator plus the loop
of the propagator with the central part. -/
theorem c140_equation (k : Known V P S) (hp : Parquet k.pi k.bare k.red) (hc : Closing k) (C : Ch → V) (dS : S) :
    SelfEnergyFlow k C dS ↔ dS = k.oneSE + k.corr C := by
  have hΓ : k.full = k.bare + others .t k.red + k.red .t := by rw [Known.full, total_eq .t]; abel
  have b1 : k.red .t = k.pi .t (k.bare + others .t k.red) k.full := (hp .t).1
  have b2 : k.red .t = k.pi .t k.full (k.bare + others .t k.red) := (hp .t).2
  simp only [SelfEnergyFlow, Known.oneSE, Known.corr, Known.katanin]
  generalize k.bare + others .t k.red = I at *
  generalize k.loop (others .t C) k.G = τ
  have ex (p : P) : k.loop k.full p = k.loop I p + k.loop (k.red .t) p := by
    conv_lhs => rw [hΓ, map_add, _root_.add_apply]
  have l1 (p : P) : k.loop (k.red .t) p = k.loop I (k.ext (k.loop k.full p)) := by
    conv_lhs => rw [b1]
    exact hc _ _ _
  have l2 (p : P) : k.loop (k.red .t) p = k.loop k.full (k.ext (k.loop I p)) := by
    conv_lhs => rw [b2]
    exact hc _ _ _
  constructor
  · intro e
    have e1 : k.loop k.full (k.ext dS) = k.loop (k.red .t) k.single + k.loop (k.red .t) (k.ext dS)
        + k.loop k.full (k.ext τ) := by
      conv_lhs => rw [e]
      rw [map_add, map_add, map_add, map_add, map_add, ← l2, ← l2]
    rw [ex (k.ext dS)] at e1
    have e2 : k.loop I (k.ext dS) = k.loop (k.red .t) k.single + k.loop k.full (k.ext τ) := by
      refine add_right_cancel (b := k.loop (k.red .t) (k.ext dS)) (e1.trans ?_)
      abel
    rw [map_add, e2] at e
    conv_lhs => rw [e]
    rw [ex k.single]
    abel
  · intro e
    have e1 : k.loop I (k.ext dS) = k.loop (k.red .t) k.single + k.loop k.full (k.ext τ) := by
      rw [e, map_add, map_add, map_add, map_add, ← l1, ← l1, ex (k.ext τ)]
    rw [map_add, e1]
    conv_lhs => rw [e, ex]
    abel

/-- C140, the vertex handed to the correction: the sum of the central parts of all loop orders up to `n + 2` is the central
part of the sum of the first `n` loop orders. -/
theorem c140_central (E : MfRG.Eqs (Ch → V) S) (k : Known V P S) (σ : S) (n : ℕ) :
    ∑ i ∈ Finset.Icc 3 (n + 2), MfRG.centralPart (k.eqs E) σ i = middle k (MfRG.sumTo (k.eqs E) σ n) := by
  induction n with
  | zero => rw [sumTo_zero, middle_zero]; rfl
  | succ n ih =>
    rw [Finset.sum_Icc_succ_top (by omega), ih, MfRG.sumTo_succ, middle_add]
    congr 1
    show k.central _ _ = _
    simp only [show n + 1 + 2 - 2 = n + 1 from rfl, orders_two]
    rfl

/-- C140, one pass of the self-energy iteration with at least three loops and without acceleration: the new self-energy
derivative fulfils the flow equation for the central part of the vertex derivative of the same pass. -/
theorem c140_pass (E : MfRG.Eqs (Ch → V) S) (c : MfRG.Cfg) (k : Known V P S) (hp : Parquet k.pi k.bare k.red)
    (hc : Closing k) (h3 : 3 ≤ c.nloops) (hs : c.seCorr = true) (ha : ∀ a b v s, E.accel (a ++ [(v, s)]) b = s)
    (j : ℕ) : ∃ n, MfRG.StopsAt (k.eqs E) c (MfRG.passes (k.eqs E) c j).sigma (n + 2) ∧
      SelfEnergyFlow k (middle k (MfRG.sumTo (k.eqs E) (MfRG.passes (k.eqs E) c j).sigma n))
        (MfRG.passes (k.eqs E) c (j + 1)).sigma := by
  obtain ⟨m, hm, -, h, -⟩ := MfRG.c67_result (k.eqs E) c h3 j
  have h2 := (h hs).2 ha
  have hm2 : 2 ≤ m := by
    rcases hm.2.2.2 with h | h <;> omega
  obtain ⟨n, rfl⟩ : ∃ n, m = n + 2 := ⟨m - 2, by omega⟩
  refine ⟨n, hm, ?_⟩
  rw [c140_equation k hp hc, h2, c140_central]
  rfl

/-- C140, without correction — fewer than three loops, or corrections switched off — the self-energy derivative is the
one-loop term, and it fulfils the flow equation without the second term. -/
theorem c140_uncorrected (E : MfRG.Eqs (Ch → V) S) (c : MfRG.Cfg) (k : Known V P S) (hp : Parquet k.pi k.bare k.red)
    (hc : Closing k) (h : c.nloops < 3 ∨ c.seCorr = false) (j : ℕ) :
    SelfEnergyFlow k 0 (MfRG.passes (k.eqs E) c j).sigma := by
  have e : (MfRG.passes (k.eqs E) c j).sigma = k.oneSE := by
    induction j with
    | zero => rfl
    | succ j ih =>
      rw [← ih]
      rcases h with h | h
      · have : ¬ c.nloops ≥ 3 := by omega
        simp [MfRG.passes, MfRG.Iter.pass, this]
      · simp only [MfRG.passes, MfRG.Iter.pass, h]
        split <;> rfl
  rw [c140_equation k hp hc, e]
  simp [Known.corr, others_zero]

theorem exClosing : Closing exKnown := by
  intro a b p
  rw [exPi]
  simp [exKnown]
  ring

/-- The hypotheses hold for `exKnown`; the self-energy derivative with a correction from the central part `(1, 2, 3)`. -/
example : SelfEnergyFlow exKnown (fun r => match r with | .a => 1 | .p => 2 | .t => 3) (73 / 10) := by
  rw [c140_equation _ exParquet exClosing]
  simp only [Known.oneSE, Known.corr, exFull, others]
  norm_num [exKnown]

example (j : ℕ) : ∃ n, MfRG.StopsAt (exKnown.eqs { exEqs with accel := fun a _ => (a.getLastD (0, 0)).2 }) exCfg
    (MfRG.passes (exKnown.eqs { exEqs with accel := fun a _ => (a.getLastD (0, 0)).2 }) exCfg j).sigma (n + 2) := by
  obtain ⟨n, h, -⟩ := c140_pass { exEqs with accel := fun a _ => (a.getLastD (0, 0)).2 } exCfg exKnown exParquet
    exClosing (by norm_num [exCfg]) rfl (by intro a b v s; simp) j
  exact ⟨n, h⟩

end Verif.Multiloop
