import Verif.Chains.Props
import Verif.Converge.PropsState
import Verif.Thermal.Props

/-! Reducible parts as vertices of the code. -/
namespace Verif.Chains
open Verif.Heredity Verif.Invariant Verif.Propagator MeasureTheory Filter Topology
open Verif.Freqs (Ch)
open Verif.Sde.Limit (bareK Tame TameV)

/-- Two vertices agree in channel `c` where energy is conserved. -/
def Agree (c : Ch) (L L' : VF) : Prop := ∀ h s α ν, ν 0 + ν 1 = ν 2 + ν 3 → L h c s α ν = L' h c s α ν

theorem legVal_congr {c : Ch} {L L' : VF} (H : Agree c L L') (h : Bool) {o1 o2 i1 i2 : Leg} (e : o1.e + o2.e = i1.e + i2.e) :
    legVal ⟨L⟩ h c o1 o2 i1 i2 = legVal ⟨L'⟩ h c o1 o2 i1 i2 := by
  unfold legVal
  dsimp only
  rw [H h 0 _ _ (by simpa using e), H h 1 _ _ (by simpa using e)]

theorem bub_congr {c : Ch} {L L' R R' : VF} (hL : Agree c L L') (hR : Agree c R R') (P : Pair) (h : Bool) (s : Nat) (α : Fin 4 → Bool) (ν : Fin 4 → ℝ) :
    bub L R P h c s α ν = bub L' R' P h c s α ν := by
  show (if _ then _ else _) = (if _ then _ else _)
  by_cases hν : ν 0 + ν 1 = ν 2 + ν 3
  · rw [if_pos hν, if_pos hν]
    congr 1
    refine integral_congr_ae (Eventually.of_forall fun x => ?_)
    have key : ∀ {A A' B B' : VF}, Agree c A A' → Agree c B B' → ∀ q : Lines, ∀ (s1 s2 s3 s4 : Bool),
        term ⟨A⟩ ⟨B⟩ P c ⟨s1, α 0, ν 0⟩ ⟨s2, α 1, ν 1⟩ ⟨s3, α 2, ν 2⟩ ⟨s4, α 3, ν 3⟩ (Heredity.lineE c ν x).1 (Heredity.lineE c ν x).2 q =
        term ⟨A'⟩ ⟨B'⟩ P c ⟨s1, α 0, ν 0⟩ ⟨s2, α 1, ν 1⟩ ⟨s3, α 2, ν 2⟩ ⟨s4, α 3, ν 3⟩ (Heredity.lineE c ν x).1 (Heredity.lineE c ν x).2 q := by
      intro A A' B B' hA hB q s1 s2 s3 s4
      cases c <;> simp only [term, Heredity.lineE]
      · rw [legVal_congr hA _ (by dsimp only; linarith), legVal_congr hB _ (by dsimp only; linarith)]
      · rw [legVal_congr hA _ (by dsimp only; linarith), legVal_congr hB _ (by dsimp only; linarith)]
      · rw [legVal_congr hA _ (by dsimp only; linarith), legVal_congr hB _ (by dsimp only; linarith)]
    dsimp only
    unfold Heredity.inner
    refine Finset.sum_congr rfl fun q _ => ?_
    cases h
    · exact key hL hR q _ _ _ _
    · exact key hR hL q _ _ _ _
  · rw [if_neg hν, if_neg hν]

theorem bub_mirror (L R : VF) (P : Pair) (c : Ch) (s : Nat) (α : Fin 4 → Bool) (ν : Fin 4 → ℝ) : bub L R P true c s α ν = bub R L P false c s α ν := rfl

theorem bub_spin (L R : VF) (P : Pair) (h : Bool) (c : Ch) (s : Nat) (α : Fin 4 → Bool) (ν : Fin 4 → ℝ) :
    bub L R P h c (spinNo (s != 0)) α ν = bub L R P h c s α ν := by
  have e1 : (spinNo (s != 0) == 0) = (s == 0) := by
    by_cases hs : s = 0 <;> simp [spinNo, hs]
  have e2 : (spinNo (s != 0) != 0) = (s != 0) := by
    by_cases hs : s = 0 <;> simp [spinNo, hs]
  simp only [bub, bubble, e1, e2]

theorem bub_off (L R : VF) (P : Pair) (h : Bool) (c : Ch) (s : Nat) (α : Fin 4 → Bool) {ν : Fin 4 → ℝ} (hν : ¬ ν 0 + ν 1 = ν 2 + ν 3) :
    bub L R P h c s α ν = 0 := if_neg hν

theorem allLegs_eq {ν : Fin 4 → ℝ} (hν : ν 0 + ν 1 = ν 2 + ν 3) : allLegs (ν 0, ν 1, ν 2) = ν := by
  funext i
  fin_cases i <;> simp [allLegs]
  linarith

theorem chan_unchan (c : Ch) : chan (unchan c) = c := by cases c <;> rfl

theorem bareFour_at (w : ℝ) (h : Bool) (c : Ch) (s : Nat) (α : Fin 4 → Bool) (ν : Fin 4 → ℝ) :
    asVertex (bareFour w) h c s α ν = bareK w h c s α ν := by
  show bareK w false .a (spinNo (s != 0)) α 0 = _
  by_cases hs : s = 0 <;> simp [spinNo, hs, bareK]

theorem agree_others (w : ℝ) (T : Keldysh.Ch → Four) (c : Ch) :
    Agree c (asVertex (bareFour w + Multiloop.others (unchan c) T)) (bareK w + Invariant.others (parts T)) := fun h s α ν hν => by
  have e : asVertex (bareFour w + Multiloop.others (unchan c) T) h c s α ν = asVertex (bareFour w) h c s α ν + asVertex (Multiloop.others (unchan c) T) h c s α ν := rfl
  rw [e, bareFour_at]
  show _ = bareK w h c s α ν + Invariant.others (parts T) h c s α ν
  congr 1
  cases c <;> simp only [Invariant.others, parts, if_pos hν] <;> rfl

theorem agree_full (w : ℝ) (T : Keldysh.Ch → Four) (c : Ch) :
    Agree c (asVertex (bareFour w + Multiloop.total T)) (Invariant.full (bareK w) (parts T)) := fun h s α ν hν => by
  have e : asVertex (bareFour w + Multiloop.total T) h c s α ν = asVertex (bareFour w) h c s α ν + asVertex (Multiloop.total T) h c s α ν := rfl
  rw [e, bareFour_at]
  show _ = bareK w false c s α ν + _
  simp only [parts, if_pos hν]
  rfl

/-- One step on the level of four-point functions is the step of the code. -/
theorem parts_step {u : Sde.Setup} {σ : SF} {s : Bse.Step Four} {w : ℝ} (hs : IsBubble (Invariant.pair u.p σ) s.pi) (hb : s.bare = bareFour w)
    (T : Keldysh.Ch → Four) : parts (Bse.iterate s false T) = Sde.computeBSE u (bareK w) σ (parts T) := by
  funext h c k α ν
  show _ = (0.5 : ℝ) • (bub (bareK w + Invariant.others (parts T)) (Invariant.full (bareK w) (parts T)) (Invariant.pair u.p σ) h c k α ν +
    bub (Invariant.full (bareK w) (parts T)) (bareK w + Invariant.others (parts T)) (Invariant.pair u.p σ) h c k α ν)
  by_cases hν : ν 0 + ν 1 = ν 2 + ν 3
  · rw [parts, if_pos hν]
    have e : Bse.iterate s false T (unchan c) = (0.5 : ℝ) • (s.pi (unchan c) (s.bare + Multiloop.others (unchan c) T) (s.bare + Multiloop.total T) +
        s.pi (unchan c) (s.bare + Multiloop.total T) (s.bare + Multiloop.others (unchan c) T)) := by
      simp only [Bse.iterate, Bse.computeBSE, Bse.overChannels_eq]; rfl
    rw [e]
    show (0.5 : ℝ) • (s.pi (unchan c) (s.bare + Multiloop.others (unchan c) T) (s.bare + Multiloop.total T) (k != 0) α (ν 0, ν 1, ν 2) +
        s.pi (unchan c) (s.bare + Multiloop.total T) (s.bare + Multiloop.others (unchan c) T) (k != 0) α (ν 0, ν 1, ν 2)) = _
    rw [hs, hs, hb, allLegs_eq hν, chan_unchan, bub_spin, bub_spin, bub_congr (agree_others w T c) (agree_full w T c),
      bub_congr (agree_full w T c) (agree_others w T c)]
    cases h
    · rfl
    · rw [bub_mirror, bub_mirror, add_comm]
  · rw [parts, if_neg hν, bub_off _ _ _ _ _ _ _ hν, bub_off _ _ _ _ _ _ _ hν, add_zero, smul_zero]

theorem parts_add (A B : Keldysh.Ch → Four) : parts (A + B) = parts A + parts B := by
  funext h c s α ν
  show parts (A + B) h c s α ν = parts A h c s α ν + parts B h c s α ν
  simp only [parts]
  split
  · rfl
  · simp

theorem parts_smul (r : ℝ) (A : Keldysh.Ch → Four) : parts (r • A) = r • parts A := by
  funext h c s α ν
  show parts (r • A) h c s α ν = r • parts A h c s α ν
  simp only [parts]
  split
  · rfl
  · simp

theorem parts_zero : parts 0 = 0 := by
  funext h c s α ν
  simp only [parts]
  split <;> rfl

theorem parts_sub_le (A B : Keldysh.Ch → Four) (h : Bool) (c : Ch) (s : Nat) (α : Fin 4 → Bool) (ν : Fin 4 → ℝ) :
    ‖parts A h c s α ν - parts B h c s α ν‖ ≤ ‖A - B‖ := by
  simp only [parts]
  split
  · have h1 : ‖(A - B) (unchan c)‖ ≤ ‖A - B‖ := norm_le_pi_norm (A - B) _
    have h2 := Four.le_norm ((A - B) (unchan c)) (s != 0)
    have h3 : ‖(A - B) (unchan c) (s != 0) α‖ ≤ _ := norm_le_pi_norm ((A - B) (unchan c) (s != 0)) α
    exact (BoundedContinuousFunction.norm_coe_le_norm ((A - B) (unchan c) (s != 0) α) _).trans (h3.trans (h2.trans h1))
  · simp

theorem parts_tendsto {X : ℕ → Keldysh.Ch → Four} {A : Keldysh.Ch → Four} (hX : Tendsto X atTop (𝓝 A)) (h : Bool) (c : Ch) (s : Nat) (α : Fin 4 → Bool)
    (ν : Fin 4 → ℝ) : Tendsto (fun n => parts (X n) h c s α ν) atTop (𝓝 (parts A h c s α ν)) := by
  rw [tendsto_iff_norm_sub_tendsto_zero] at hX ⊢
  exact squeeze_zero (fun _ => norm_nonneg _) (fun n => parts_sub_le _ _ h c s α ν) hX

theorem parts_tame (A : Keldysh.Ch → Four) : TameV (parts A) := fun h c s _ => by
  refine ⟨fun α => ?_, ⟨‖A‖, fun α ν => ?_⟩⟩
  · have m : MeasurableSet {ν : Fin 4 → ℝ | ν 0 + ν 1 = ν 2 + ν 3} := measurableSet_eq_fun (by fun_prop) (by fun_prop)
    refine Measurable.ite m ?_ measurable_const
    have c1 : Continuous fun ν : Fin 4 → ℝ => (ν 0, ν 1, ν 2) := by fun_prop
    exact ((A (unchan c) (s != 0) α).continuous.comp c1).measurable
  · have := parts_sub_le A 0 h c s α ν
    rw [parts_zero, sub_zero] at this
    simpa using this

/-! ### Limits -/

theorem goodV_limit {ph : Bool} {X : ℕ → Keldysh.Ch → Four} {A : Keldysh.Ch → Four} (hX : Tendsto X atTop (𝓝 A)) (h : ∀ n, GoodV ph (parts (X n))) :
    GoodV ph (parts A) :=
  (Converge.good_limit (e := 0) (x := fun n => ((0 : SF), parts (X n))) (s := (0, parts A)) (fun n => ⟨GoodS.zero, h n⟩)
    (fun _ => tendsto_const_nhds) (fun _ => tendsto_const_nhds) fun a c s α ν => parts_tendsto hX a c s α ν).2

theorem equilibrium_limit {T mu : ℝ} {X : ℕ → Keldysh.Ch → Four} {A : Keldysh.Ch → Four} (hX : Tendsto X atTop (𝓝 A))
    (h : ∀ n, Thermal.Equilibrium T mu (parts (X n))) : Thermal.Equilibrium T mu (parts A) := fun a c s hs ν hν b => by
  have t : ∀ b, Tendsto (fun n => Thermal.rot (Thermal.comps (parts (X n)) a c s ν) b) atTop (𝓝 (Thermal.rot (Thermal.comps (parts A) a c s ν) b)) := fun b => by
    unfold Thermal.rot
    exact (tendsto_finsetSum _ fun k _ => (parts_tendsto hX a c s _ ν).const_mul _).const_mul _
  exact tendsto_nhds_unique ((continuous_star.tendsto _).comp (t b)) (((t (Thermal.flip b)).const_mul _).congr fun n => (h n a c s hs ν hν b).symm)

end Verif.Chains
