import Verif.Sde.Model
import Verif.Invariant.Props
import Verif.Loop.Props

/-! Lemmas for C159: a single-spin loop over the part of a symmetric vertex reducible in one channel. -/
namespace Verif.Sde
open Verif.Symmetries Verif.Heredity Verif.Propagator Verif.Invariant MeasureTheory
open Verif.Freqs (Ch Fr legs)

variable {ph : Bool}

/-- The vertex in a loop by the indices of the outer outgoing, inner outgoing, outer incoming and inner incoming leg, and
the outer and inner frequency. -/
abbrev Closed : Type := Bool → Bool → Bool → Bool → ℝ → ℝ → ℂ

/-- The vertex as loops of the two versions see it. -/
def seen (version : Bool) (Γ : Part) : Closed := fun o b i d v vp =>
  if version then Γ 0 ![b, o, i, d] ![vp, v, v, vp] + Γ 1 ![b, o, i, d] ![vp, v, v, vp] else Γ 0 ![o, b, i, d] ![v, vp, v, vp]

/-- The sum over the inner indices. -/
noncomputable def sumK (W : Closed) (G : Keldysh.Prop2 ℂ) (o i : Bool) (v vp : ℝ) : ℂ :=
  ∑ b : Bool, ∑ d : Bool, comp G d b * W o b i d v vp

theorem row_sumK (version : Bool) (Γ : Part) (G : Keldysh.Prop2 ℂ) (v vp : ℝ) (o i : Fin 2) (c : Fin 4)
    (hc : c.val = 2 * i.val + o.val) :
    Loop.row version false G.matrix (fun s iK => spins Γ s (bits iK)
      (legFun (legs (.ch (if version then .a else .t)) ⟨0, vp, v⟩))) c = sumK (seen version Γ) G (o == 1) (i == 1) v vp := by
  have hl : legFun (legs (.ch .t) ⟨0, vp, v⟩) = ![v, vp, v, vp] := by
    funext k; fin_cases k <;> simp [legFun, legs]
  have ha : legFun (legs (.ch .a) ⟨0, vp, v⟩) = ![vp, v, v, vp] := by
    funext k; fin_cases k <;> simp [legFun, legs]
  have hb : ∀ o b i d : Fin 2, bits (Loop.leg o b i d) = ![o == 1, b == 1, i == 1, d == 1] := by decide +kernel
  rw [Loop.c92_contraction version false _ _ o i c hc]
  cases version
  · simp only [Loop.closeSecond, sumK, seen, spins, Bool.false_eq_true, if_false, hl, hb, Fin.sum_univ_two, Fintype.sum_bool,
      Keldysh.Prop2.matrix, comp]
    simp
    ring
  · simp only [Loop.closeCrossed, sumK, seen, spins, ha, hb, Fin.sum_univ_two, Fintype.sum_bool, Keldysh.Prop2.matrix, comp,
      if_true]
    simp
    ring

/-- The integrated loop. -/
noncomputable def integral (Δ : ℝ) (W : Closed) (G : ℝ → Keldysh.Prop2 ℂ) (o i : Bool) (v : ℝ) : ℂ :=
  Loop.prefactor * ∫ vp in (-Δ * 10 - |v|)..(Δ * 10 + |v|), (sumK W (G vp) o i v vp + sumK W (G (-vp)) o i v (-vp)) * (1/2)

theorem loopOne_value (version : Bool) (Δ : ℝ) (Γ : Part) (G : ℝ → Keldysh.Prop2 ℂ) :
    loopOne version Δ Γ G = (if version then -1 else 1 : ℝ) •
      ((fun v => star (integral Δ (seen version Γ) G true false v), fun v => integral Δ (seen version Γ) G false false v) : SF) := by
  have h1 : ∀ v vp, _ := fun v vp => row_sumK version Γ (G vp) v vp 1 0 1 rfl
  have h0 : ∀ v vp, _ := fun v vp => row_sumK version Γ (G vp) v vp 0 0 0 rfl
  simp only [loopOne, Loop.keldyshLoop, Loop.integrand, h1, h0, integral]
  rfl

/-- Conjugation symmetry of the vertex in a loop. -/
def ConjW (W : Closed) : Prop := ∀ o b i d v vp, star (W o b i d v vp) = -(sg o * sg b * sg i * sg d) * W i d o b v vp

/-- Particle-hole symmetry of the vertex in a loop. -/
def PhW (W : Closed) : Prop := ∀ o b i d v vp, star (W o b i d v vp) = -(sg o * sg b * sg i * sg d) * W o b i d (-v) (-vp)

theorem sumK_star {W : Closed} {G : ℝ → Keldysh.Prop2 ℂ} (hW : ConjW W) (hG : AntiK G) (o i : Bool) (v vp x : ℝ) :
    star (sumK W (G x) o i v vp) = sg o * sg i * sumK W (G x) i o v vp := by
  have e : ∀ b d : Bool, star (comp (G x) d b * W o b i d v vp) = sg o * sg i * (comp (G x) b d * W i d o b v vp) := by
    intro b d
    rw [star_mul', comp_star hG, hW]
    have e : ∀ g a : ℂ, -(sg d * sg b) * g * (-(sg o * sg b * sg i * sg d) * a) =
        (sg b * sg b) * (sg d * sg d) * (sg o * sg i * (g * a)) := fun g a => by ring
    rw [e]
    simp only [sg_sq, one_mul]
  unfold sumK
  simp only [star_sum, e]
  rw [Finset.sum_comm]
  simp only [Finset.mul_sum]

theorem sumK_ph {W : Closed} {G : ℝ → Keldysh.Prop2 ℂ} (hW : PhW W) (hG : AntiK G) (hp : PH G) (o i : Bool) (v vp : ℝ) :
    star (sumK W (G vp) o i v vp) = -(sg o * sg i) * sumK W (G (-vp)) o i (-v) (-vp) := by
  unfold sumK
  simp only [star_sum, Finset.mul_sum]
  refine Fintype.sum_congr _ _ fun b => Fintype.sum_congr _ _ fun d => ?_
  rw [star_mul', comp_ph hG hp, hW]
  have e : ∀ g a : ℂ, sg d * sg b * g * (-(sg o * sg b * sg i * sg d) * a) =
      (sg b * sg b) * (sg d * sg d) * (-(sg o * sg i) * (g * a)) := fun g a => by ring
  rw [e]
  simp only [sg_sq, one_mul]

theorem integral_good {W : Closed} {G : ℝ → Keldysh.Prop2 ℂ} (hW : ConjW W) (hWp : ph = true → PhW W) (hG : AntiK G)
    (hp : ph = true → PH G) (Δ : ℝ) : GoodS ph 0
      (((fun v => star (integral Δ W G true false v), fun v => integral Δ W G false false v)) : SF) := by
  have hstar : ∀ v, star (integral Δ W G false false v) = -integral Δ W G false false v := by
    intro v
    unfold integral
    rw [star_mul', star_prefactor, star_interval, neg_mul]
    congr 2
    refine intervalIntegral.integral_congr fun x _ => ?_
    have half : star (1/2 : ℂ) = 1/2 := by simp
    simp only [star_mul', star_add, half, sumK_star hW hG, sg]
    simp
  refine ⟨hstar, fun h v => ?_⟩
  subst h
  have hPH := hp rfl
  have key : ∀ o i, star (integral Δ W G o i v) = sg o * sg i * integral Δ W G o i (-v) := by
    intro o i
    unfold integral
    rw [star_mul', star_prefactor, star_interval, abs_neg, mul_left_comm, neg_mul, ← mul_neg]
    congr 1
    rw [← intervalIntegral.integral_neg, ← intervalIntegral.integral_const_mul]
    refine intervalIntegral.integral_congr fun x _ => ?_
    have half : star (1/2 : ℂ) = 1/2 := by simp
    have t := sumK_ph (hWp rfl) hG hPH o i v (-x)
    rw [neg_neg] at t
    simp only [star_mul', star_add, half, sumK_ph (hWp rfl) hG hPH o i v x, t]
    ring
  constructor
  · have h2 : integral Δ W G true false (-v) = -star (integral Δ W G true false v) := by
      rw [key true false]; simp [sg]
    simp only [h2]; simp
  · have := key false false
    rw [hstar v] at this
    simp only
    rw [this]; simp [sg]

/-- Exchange of both pairs of legs. -/
theorem exchange {V : VF} (hV : GoodV ph V) (c : Ch) (s : Nat) (hs : s < 2) (a b i d : Bool) (x y z w : ℝ) :
    V false c s ![a, b, i, d] ![x, y, z, w] = V false c s ![b, a, d, i] ![y, x, w, z] := by
  have e1 : (![a, b, i, d] ∘ swapIn) ∘ swapOut = ![b, a, d, i] := by
    funext k; fin_cases k <;> simp [swapIn, swapOut, Equiv.swap_apply_def]
  have e2 : (![x, y, z, w] ∘ swapIn) ∘ swapOut = ![y, x, w, z] := by
    funext k; fin_cases k <;> simp [swapIn, swapOut, Equiv.swap_apply_def]
  have h1 := hV.sym.crossIn false c s ![a, b, i, d] ![x, y, z, w] hs
  have h2 := hV.sym.crossOut false (crossed c) (1 - s) (![a, b, i, d] ∘ swapIn) (![x, y, z, w] ∘ swapIn) (by omega)
  have hc : crossed (crossed c) = c := by cases c <;> rfl
  have hs' : 1 - (1 - s) = s := by omega
  simp only [hV.same (xor _ _), e1, e2, hc, hs'] at h1 h2
  rw [h1, h2]
  simp

theorem seen_conj {V : VF} (hV : GoodV ph V) (version : Bool) (c : Ch) : ConjW (seen version (V false c)) := by
  have key : ∀ s, s < 2 → ∀ o b i d x y z w, star (V false c s ![o, b, i, d] ![x, y, z, w]) =
      -(sg o * sg b * sg i * sg d) * V false c s ![i, d, o, b] ![z, w, x, y] := by
    intro s hs o b i d x y z w
    have h := hV.sym.conjK rfl false c s ![i, d, o, b] ![z, w, x, y] hs
    have e1 : ∀ a1 a2 a3 a4 : Bool, (![a1, a2, a3, a4] ∘ inOut) = ![a3, a4, a1, a2] := by
      intro a1 a2 a3 a4; funext k; fin_cases k <;> simp [inOut, Equiv.swap_apply_def]
    have e2 : (![z, w, x, y] ∘ inOut) = ![x, y, z, w] := by
      funext k; fin_cases k <;> simp [inOut, Equiv.swap_apply_def]
    simp only [e1, e2, hV.same (xor _ _), conjSign_sg] at h
    rw [h]
    have e : ∀ t : ℂ, -(sg o * sg b * sg i * sg d) * (-(sg i * sg d * sg o * sg b) * t) =
        (sg o * sg o) * (sg b * sg b) * (sg i * sg i) * (sg d * sg d) * t := fun t => by ring
    rw [e]
    simp only [sg_sq, one_mul]
  intro o b i d v vp
  cases version
  · simp only [seen, Bool.false_eq_true, if_false]
    exact key 0 (by decide) o b i d v vp v vp
  · simp only [seen, if_true]
    rw [star_add, key 0 (by decide), key 1 (by decide), exchange hV c 0 (by decide) d i o b,
      exchange hV c 1 (by decide) d i o b]
    ring

theorem seen_ph {V : VF} (hV : GoodV true V) (version : Bool) (c : Ch) : PhW (seen version (V false c)) := by
  have key : ∀ s, s < 2 → ∀ o b i d x y z w, star (V false c s ![o, b, i, d] ![x, y, z, w]) =
      -(sg o * sg b * sg i * sg d) * V false c s ![o, b, i, d] ![-x, -y, -z, -w] := by
    intro s hs o b i d x y z w
    have h := hV.sym.ph rfl rfl false c s ![o, b, i, d] ![-x, -y, -z, -w] hs
    simp only [neg_vec, neg_neg, conjSign_sg] at h
    rw [h]
    have e : ∀ z : ℂ, -(sg o * sg b * sg i * sg d) * (-(sg o * sg b * sg i * sg d) * z) =
        (sg o * sg o) * (sg b * sg b) * (sg i * sg i) * (sg d * sg d) * z := fun z => by ring
    rw [e]
    simp only [sg_sq, one_mul]
  intro o b i d v vp
  cases version
  · simp only [seen, Bool.false_eq_true, if_false]
    exact key 0 (by decide) o b i d v vp v vp
  · simp only [seen, if_true]
    rw [star_add, key 0 (by decide), key 1 (by decide)]
    ring

/-- The loop over the part of a symmetric vertex reducible in one channel is a symmetric self-energy. -/
theorem loopOne_good {V : VF} (hV : GoodV ph V) {G : ℝ → Keldysh.Prop2 ℂ} (hG : AntiK G) (hp : ph = true → PH G)
    (version : Bool) (Δ : ℝ) (c : Ch) : GoodS ph 0 (loopOne version Δ (V false c) G) := by
  rw [loopOne_value]
  refine GoodS.smul _ (integral_good (seen_conj hV version c) (fun h => ?_) hG hp Δ)
  subst h
  exact seen_ph hV version c

end Verif.Sde
