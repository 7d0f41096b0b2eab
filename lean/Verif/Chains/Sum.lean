import Verif.Chains.Parts

/-! The contributions of all loop orders as the code computes them, for states given by bounded continuous functions. -/
namespace Verif.Chains
open Verif.Heredity Verif.Invariant Verif.Propagator MeasureTheory Filter Topology
open Verif.Freqs (Ch)
open Verif.Multiloop (Known Chain)
open Verif.Sde.Limit (bareK)

/-- Two vertices agree in one position of a bubble in channel `c` where energy is conserved. -/
def AgreeAt (h : Bool) (c : Ch) (L L' : VF) : Prop := ∀ s α ν, ν 0 + ν 1 = ν 2 + ν 3 → L h c s α ν = L' h c s α ν

theorem Agree.at {c : Ch} {L L' : VF} (H : Agree c L L') (h : Bool) : AgreeAt h c L L' := H h

theorem legVal_congrAt {h : Bool} {c : Ch} {L L' : VF} (H : AgreeAt h c L L') {o1 o2 i1 i2 : Leg} (e : o1.e + o2.e = i1.e + i2.e) :
    legVal ⟨L⟩ h c o1 o2 i1 i2 = legVal ⟨L'⟩ h c o1 o2 i1 i2 := by
  unfold legVal
  dsimp only
  rw [H 0 _ _ (by simpa using e), H 1 _ _ (by simpa using e)]

/-- The first half of a bubble depends only on the left vertex in the left and the right vertex in the right position. -/
theorem bub_congrAt {c : Ch} {L L' R R' : VF} (hL : AgreeAt false c L L') (hR : AgreeAt true c R R') (P : Pair) (s : Nat) (α : Fin 4 → Bool) (ν : Fin 4 → ℝ) :
    bub L R P false c s α ν = bub L' R' P false c s α ν := by
  show (if _ then _ else _) = (if _ then _ else _)
  by_cases hν : ν 0 + ν 1 = ν 2 + ν 3
  · rw [if_pos hν, if_pos hν]
    congr 1
    refine integral_congr_ae (Eventually.of_forall fun x => ?_)
    dsimp only
    unfold Heredity.inner
    refine Finset.sum_congr rfl fun q _ => ?_
    cases c <;> simp only [term, Heredity.lineE, Bool.false_eq_true, if_false]
    · rw [legVal_congrAt hL (by dsimp only; linarith), legVal_congrAt hR (by dsimp only; linarith)]
    · rw [legVal_congrAt hL (by dsimp only; linarith), legVal_congrAt hR (by dsimp only; linarith)]
    · rw [legVal_congrAt hL (by dsimp only; linarith), legVal_congrAt hR (by dsimp only; linarith)]
  · rw [if_neg hν, if_neg hν]

/-- A bubble of bounded continuous functions, channel by channel. -/
theorem parts_bubble {P : Pair} {pi : Keldysh.Ch → Four →L[ℝ] Four →L[ℝ] Four} (hb : IsBubble P pi) {A B : Keldysh.Ch → Four} {L R : VF}
    (hL : ∀ c, AgreeAt false c (asVertex (A (unchan c))) L) (hR : ∀ c, AgreeAt true c (asVertex (B (unchan c))) R) :
    bub L R P false = parts (fun r => pi r (A r) (B r)) false := by
  funext c s α ν
  by_cases hν : ν 0 + ν 1 = ν 2 + ν 3
  · rw [parts, if_pos hν, hb, allLegs_eq hν, chan_unchan, bub_spin, bub_congrAt (hL c) (hR c)]
  · rw [parts, if_neg hν, bub_off _ _ _ _ _ _ _ hν]

theorem parts_half (A : Keldysh.Ch → Four) (h : Bool) : parts A h = parts A false := rfl

theorem agree_rest {A : Keldysh.Ch → Four} {T : VF} (hT : T false = parts A false) (c : Ch) :
    Agree c (asVertex (Multiloop.others (unchan c) A)) (Invariant.others T) := fun h s α ν hν => by
  cases c <;> simp only [Invariant.others, hT, parts, if_pos hν] <;> rfl

theorem agree_self {A : Keldysh.Ch → Four} {L : VF} (h : Bool) (hL : L h = parts A false) (c : Ch) : AgreeAt h c (asVertex (A (unchan c))) L := fun s α ν hν => by
  rw [hL, parts, if_pos hν]; rfl

section
variable {p : Par} {σ dσ : SF} {w : ℝ} {P S : Type} [NormedAddCommGroup P] [NormedSpace ℝ P] [NormedAddCommGroup S] [NormedSpace ℝ S]
  {k : Known Four P S} (ς : S) (hw : k.bare = bareFour w) (hb : IsBubble (Invariant.pair p σ) k.pi)
  (hd : IsBubble (Invariant.dpair p σ dσ) (k.dpi (k.katanin ς)))
  (hc : ∀ r A B C, k.pi r (k.pi r A B) C = k.pi r A (k.pi r B C))
  (o : Invariant.Open) (Δ : ℝ) (E : MfRG.Eqs (Keldysh.Ch → Four) S) (hE : k.k2 = 0 ∧ k.k2b = 0)

include hw in
theorem agree_known (c : Ch) : Agree c (asVertex k.full) (Invariant.full (bareK w) (parts k.red)) := by
  have := agree_full w k.red c
  rw [← hw] at this
  exact this

include hw hd in
theorem parts_one : (Invariant.eqs o Δ p (bareK w) σ (parts k.red)).one dσ = parts (k.one ς) := by
  have e := parts_bubble (A := fun _ => k.full) (B := fun _ => k.full) hd (fun c => (agree_known hw c).at false) fun c => (agree_known hw c).at true
  funext h
  cases h
  · exact e
  · exact e

include hw hb in
theorem parts_left {A : Keldysh.Ch → Four} {T : VF} (hT : T false = parts A false) :
    (Invariant.eqs o Δ p (bareK w) σ (parts k.red)).left T false = parts (k.left A) false :=
  parts_bubble (A := fun r => Multiloop.others r A) (B := fun _ => k.full) hb (fun c => (agree_rest hT c).at false) fun c => (agree_known hw c).at true

include hw hb in
theorem parts_right {A : Keldysh.Ch → Four} {T : VF} (hT : T false = parts A false) :
    (Invariant.eqs o Δ p (bareK w) σ (parts k.red)).right T false = parts (k.right A) false :=
  parts_bubble (A := fun _ => k.full) (B := fun r => Multiloop.others r A) hb (fun c => (agree_known hw c).at false) fun c => (agree_rest hT c).at true

include hw hb in
theorem parts_sides {A : Keldysh.Ch → Four} {T : VF} (hT : T false = parts A false) :
    (Invariant.eqs o Δ p (bareK w) σ (parts k.red)).left T + (Invariant.eqs o Δ p (bareK w) σ (parts k.red)).right T = parts (k.left A + k.right A) := by
  have l := parts_left hw hb o Δ hT
  have r := parts_right hw hb o Δ hT
  rw [parts_add]
  funext h
  cases h
  · show _ + _ = parts (k.left A) false + parts (k.right A) false
    rw [← l, ← r]
  · show (Invariant.eqs o Δ p (bareK w) σ (parts k.red)).right T false + (Invariant.eqs o Δ p (bareK w) σ (parts k.red)).left T false = parts (k.left A) false + parts (k.right A) false
    rw [← l, ← r, add_comm]

include hw hb hE in
/-- Whatever is taken for the K2 components, the central part is the mean of two equal things. -/
theorem parts_central {A B : Keldysh.Ch → Four} {L R : VF} (hL : L false = parts A false) (hR : R false = parts B false)
    (hAB : ∀ r, k.pi r k.full (A r) = k.pi r (B r) k.full) :
    (Invariant.eqs o Δ p (bareK w) σ (parts k.red)).central L R = parts (k.central A B) := by
  have eA : (fun r => k.pi r k.full (A r)) = fun r => k.pi r (B r) k.full := funext hAB
  have c1 : Invariant.centralRight p (bareK w) σ (parts k.red) L R = parts fun r => k.pi r k.full (A r) := by
    funext h
    cases h
    · exact parts_bubble (A := fun _ => k.full) (B := A) hb (fun c => (agree_known hw c).at false) fun c => agree_self true hL c
    · rw [eA]
      exact parts_bubble (A := B) (B := fun _ => k.full) hb (fun c => agree_self false hR c) fun c => (agree_known hw c).at true
  have c2 : Invariant.centralLeft p (bareK w) σ (parts k.red) L R = parts fun r => k.pi r k.full (A r) := by
    funext h
    cases h
    · rw [eA]
      exact parts_bubble (A := B) (B := fun _ => k.full) hb (fun c => agree_self false hR c) fun c => (agree_known hw c).at true
    · exact parts_bubble (A := fun _ => k.full) (B := A) hb (fun c => (agree_known hw c).at false) fun c => agree_self true hL c
  have e : k.central A B = fun r => k.pi r k.full (A r) := by
    funext r
    simp only [Known.central, Known.centralRight, Known.centralLeft, hE.1, hE.2, ← hAB]
    show (0.5 : ℝ) • (k.pi r k.full (A r) - 0 + 0 + (k.pi r k.full (A r) - 0 + 0)) = _
    rw [sub_zero, add_zero, ← two_smul ℝ, smul_smul]
    norm_num
  rw [e]
  show Invariant.central o p (bareK w) σ (parts k.red) L R = _
  simp only [Invariant.central, c1, c2, sub_add_cancel]
  rw [← two_smul ℝ, smul_smul]
  norm_num

include hw hb hd hc hE in
theorem parts_orders (i : ℕ) :
    (MfRG.orders (Invariant.eqs o Δ p (bareK w) σ (parts k.red)) dσ i).1 = parts (MfRG.orders (k.eqs E) ς i).1 ∧
    (MfRG.orders (Invariant.eqs o Δ p (bareK w) σ (parts k.red)) dσ i).2.1 false = parts (MfRG.orders (k.eqs E) ς i).2.1 false ∧
    (MfRG.orders (Invariant.eqs o Δ p (bareK w) σ (parts k.red)) dσ i).2.2 false = parts (MfRG.orders (k.eqs E) ς i).2.2 false ∧
    ∀ r, k.pi r k.full ((MfRG.orders (k.eqs E) ς i).2.1 r) = k.pi r ((MfRG.orders (k.eqs E) ς i).2.2 r) k.full := by
  have chain : ∀ T r, k.pi r k.full (k.left T r) = k.pi r (k.right T r) k.full := fun T r => (hc r _ _ _).symm
  have one := parts_one ς hw hd o Δ
  induction i with
  | zero =>
    refine ⟨one, ?_, ?_, fun r => ?_⟩
    · show (0 : VF) false = parts 0 false
      rw [parts_zero]
    · show (0 : VF) false = parts 0 false
      rw [parts_zero]
    · show k.pi r k.full 0 = k.pi r 0 k.full
      simp
  | succ i ih =>
    cases i with
    | zero =>
      have o1 := congrFun one false
      exact ⟨parts_sides hw hb o Δ o1, parts_left hw hb o Δ o1, parts_right hw hb o Δ o1, chain _⟩
    | succ i =>
      obtain ⟨a1, a2, a3, a4⟩ := ih
      have a1' := congrFun a1 false
      refine ⟨?_, parts_left hw hb o Δ a1', parts_right hw hb o Δ a1', chain _⟩
      have s := parts_sides hw hb o Δ a1'
      have c := parts_central hw hb o Δ hE a2 a3 a4
      simp only [MfRG.orders]
      rw [add_right_comm, s, c, ← parts_add]
      congr 1
      exact add_right_comm _ _ _

include hw hb hd hc hE in
/-- The sum of the contributions up to any loop order is the same on both levels. -/
theorem parts_sumTo (n : ℕ) :
    MfRG.sumTo (Invariant.eqs o Δ p (bareK w) σ (parts k.red)) dσ n = parts (MfRG.sumTo (k.eqs E) ς n) := by
  have sum : ∀ (s : Finset ℕ) (f : ℕ → Keldysh.Ch → Four), parts (∑ i ∈ s, f i) = ∑ i ∈ s, parts (f i) := fun s f => by
    classical
    induction s using Finset.induction_on with
    | empty => exact parts_zero
    | insert a s ha ih => rw [Finset.sum_insert ha, Finset.sum_insert ha, parts_add, ih]
  unfold MfRG.sumTo
  rw [sum]
  exact Finset.sum_congr rfl fun i _ => (parts_orders ς hw hb hd hc o Δ E hE (i - 1)).1

end

end Verif.Chains
