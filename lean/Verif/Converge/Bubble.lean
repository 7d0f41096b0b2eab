import Verif.Converge.Lines

/-! Bounds of bubbles and of differences between bubbles. -/
namespace Verif.Converge
open Verif.Symmetries Verif.Heredity Verif.Propagator Verif.Weak MeasureTheory
open Verif.Invariant (VF SF bub)
open Verif.Freqs (Ch)

/-- Measurable in the energies. -/
def MeasV (V : VF) : Prop := ∀ h c s α, Measurable (V h c s α)

section Meas
variable {Ω : Type} [MeasurableSpace Ω]

theorem meas4 {e1 e2 e3 e4 : Ω → ℝ} (h1 : Measurable e1) (h2 : Measurable e2) (h3 : Measurable e3) (h4 : Measurable e4) :
    Measurable fun y => ![e1 y, e2 y, e3 y, e4 y] := by
  rw [measurable_pi_iff]
  intro k
  fin_cases k
  · exact h1
  · exact h2
  · exact h3
  · exact h4

theorem legVal_meas {V : VF} (hV : MeasV V) {e1 e2 e3 e4 : Ω → ℝ} (h1 : Measurable e1) (h2 : Measurable e2) (h3 : Measurable e3)
    (h4 : Measurable e4) (h : Bool) (c : Ch) (s1 k1 s2 k2 s3 k3 s4 k4 : Bool) :
    Measurable fun ω => legVal ⟨V⟩ h c ⟨s1, k1, e1 ω⟩ ⟨s2, k2, e2 ω⟩ ⟨s3, k3, e3 ω⟩ ⟨s4, k4, e4 ω⟩ := by
  simp only [legVal]
  refine Measurable.add ?_ ?_
  · split
    · exact (hV h c 0 _).comp (meas4 h1 h2 h3 h4)
    · exact measurable_const
  · split
    · exact (hV h c 1 _).comp (meas4 h1 h2 h3 h4)
    · exact measurable_const

theorem inner_meas {L R : VF} (hL : MeasV L) (hR : MeasV R) {P : Pair} (hP : ∀ a b c d, Measurable fun q : ℝ × ℝ => P a b c d q.1 q.2)
    {e1 e2 e3 e4 y z : Ω → ℝ} (h1 : Measurable e1) (h2 : Measurable e2) (h3 : Measurable e3) (h4 : Measurable e4) (hy : Measurable y)
    (hz : Measurable z) (c : Ch) (s1 k1 s2 k2 s3 k3 s4 k4 : Bool) :
    Measurable fun ω => inner ⟨L⟩ ⟨R⟩ P c ⟨s1, k1, e1 ω⟩ ⟨s2, k2, e2 ω⟩ ⟨s3, k3, e3 ω⟩ ⟨s4, k4, e4 ω⟩ (y ω) (z ω) := by
  simp only [Heredity.inner]
  refine Finset.measurable_sum _ fun q _ => ?_
  have p : Measurable fun ω => P q.y0 q.y1 q.y2 q.y3 (y ω) (z ω) := (hP q.y0 q.y1 q.y2 q.y3).comp (hy.prodMk hz)
  cases c <;> simp only [term]
  · exact ((legVal_meas hL h1 hz hy h4 ..).mul p).mul (legVal_meas hR hy h2 h3 hz ..)
  · by_cases hq : q.u = s3 ∧ q.v = s4
    · simp only [if_pos hq]
      exact ((legVal_meas hL h1 h2 hy hz ..).mul p).mul (legVal_meas hR hy hz h3 h4 ..)
    · simp only [if_neg hq]
      exact measurable_const
  · exact ((legVal_meas hL hz h2 hy h4 ..).mul p).mul (legVal_meas hR h1 hy h3 hz ..)

end Meas

theorem pair_meas {G : ℝ → Keldysh.Prop2 ℂ} (hG : ∀ a b, Measurable fun x => comp (G x) a b) (a b c d : Bool) :
    Measurable fun q : ℝ × ℝ => pairOf G G false a b c d q.1 q.2 := by
  simp only [pairOf, Bool.false_eq_true, if_false]
  exact ((hG a c).comp measurable_fst).mul ((hG b d).comp measurable_snd)

theorem bub_meas {L R : VF} (hL : MeasV L) (hR : MeasV R) {P : Pair} (hP : ∀ a b c d, Measurable fun q : ℝ × ℝ => P a b c d q.1 q.2) :
    MeasV (bub L R P) := by
  intro h c s α
  simp only [bub, bubble]
  refine Measurable.ite (measurableSet_eq_fun (by fun_prop) (by fun_prop)) (Measurable.const_mul ?_ _) measurable_const
  have ev : ∀ i : Fin 4, Measurable fun q : (Fin 4 → ℝ) × ℝ => q.1 i := fun i => (measurable_pi_apply i).comp measurable_fst
  have ly : Measurable fun q : (Fin 4 → ℝ) × ℝ => (lineE c q.1 q.2).1 := by
    cases c <;> simp only [lineE] <;> fun_prop
  have lz : Measurable fun q : (Fin 4 → ℝ) × ℝ => (lineE c q.1 q.2).2 := by
    cases c <;> simp only [lineE] <;> fun_prop
  cases h
  · exact (StronglyMeasurable.integral_prod_right (ν := volume)
      (inner_meas hL hR hP (ev 0) (ev 1) (ev 2) (ev 3) ly lz c true (α 0) false (α 1) (s == 0) (α 2) (s != 0) (α 3)).stronglyMeasurable).measurable
  · exact (StronglyMeasurable.integral_prod_right (ν := volume)
      (inner_meas hR hL hP (ev 0) (ev 1) (ev 2) (ev 3) ly lz c true (α 0) false (α 1) (s == 0) (α 2) (s != 0) (α 3)).stronglyMeasurable).measurable

/-! ### Sizes -/

theorem legVal_le {V : VF} {l : ℝ} (hV : SmallV l V) (h : Bool) (c : Ch) (o1 o2 i1 i2 : Leg) : ‖legVal ⟨V⟩ h c o1 o2 i1 i2‖ ≤ 2 * l := by
  have l0 : 0 ≤ l := (norm_nonneg _).trans (hV h c 0 (fun _ => true) 0)
  unfold legVal
  refine (norm_add_le _ _).trans ?_
  have a : ∀ (P : Prop) [Decidable P] (s : ℕ) (α : Fin 4 → Bool) (ν : Fin 4 → ℝ), ‖if P then V h c s α ν else 0‖ ≤ l := by
    intro P _ s α ν
    split
    · exact hV ..
    · simpa using l0
  linarith [a (o1.s = i1.s ∧ o2.s = i2.s) 0 ![o1.k, o2.k, i1.k, i2.k] ![o1.e, o2.e, i1.e, i2.e],
    a (o1.s = i2.s ∧ o2.s = i1.s) 1 ![o1.k, o2.k, i1.k, i2.k] ![o1.e, o2.e, i1.e, i2.e]]

theorem legVal_sub (V V' : VF) (h : Bool) (c : Ch) (o1 o2 i1 i2 : Leg) :
    legVal ⟨V⟩ h c o1 o2 i1 i2 - legVal ⟨V'⟩ h c o1 o2 i1 i2 = legVal ⟨V - V'⟩ h c o1 o2 i1 i2 := by
  simp only [legVal, Pi.sub_apply]
  split_ifs <;> ring

theorem legVal_near {V V' : VF} {d : ℝ} (hV : NearV d V V') (h : Bool) (c : Ch) (o1 o2 i1 i2 : Leg) :
    ‖legVal ⟨V⟩ h c o1 o2 i1 i2 - legVal ⟨V'⟩ h c o1 o2 i1 i2‖ ≤ 2 * d := by
  rw [legVal_sub]
  exact legVal_le (fun h c s α ν => hV h c s α ν) ..

theorem three {a a' q q' b b' : ℂ} {A dA Q dQ B dB : ℝ} (ha : ‖a - a'‖ ≤ dA) (ha' : ‖a'‖ ≤ A) (hq : ‖q - q'‖ ≤ dQ) (hq1 : ‖q‖ ≤ Q) (hq' : ‖q'‖ ≤ Q)
    (hb : ‖b - b'‖ ≤ dB) (hb1 : ‖b‖ ≤ B) : ‖a * q * b - a' * q' * b'‖ ≤ dA * Q * B + A * dQ * B + A * Q * dB := by
  have e : a * q * b - a' * q' * b' = (a - a') * q * b + a' * (q - q') * b + a' * q' * (b - b') := by ring
  have dA0 := (norm_nonneg _).trans ha
  have A0 := (norm_nonneg _).trans ha'
  have dQ0 := (norm_nonneg _).trans hq
  have Q0 := (norm_nonneg _).trans hq1
  have dB0 := (norm_nonneg _).trans hb
  have B0 := (norm_nonneg _).trans hb1
  rw [e]
  refine (norm_add₃_le).trans ?_
  simp only [norm_mul]
  gcongr

section
variable {L L' R R' : VF} {G G' : ℝ → Keldysh.Prop2 ℂ} {h e k d l dl r dr : ℝ}

/-- The constant in front of a difference between bubbles. -/
def size (k d l dl r dr : ℝ) : ℝ := 4 * (dl * k ^ 2 * r + 2 * (l * (k * d) * r) + l * k ^ 2 * dr)

theorem pair_le (hG : Line k h e G) (a b c d' : Bool) (y z : ℝ) :
    ‖pairOf G G false a b c d' y z‖ ≤ k ^ 2 * (rho h e y * rho h e z) := by
  have k0 : 0 ≤ k * rho h e y := (norm_nonneg _).trans (hG.bound y a c)
  simp only [pairOf, Bool.false_eq_true, if_false, norm_mul]
  refine (mul_le_mul (hG.bound y a c) (hG.bound z b d') (norm_nonneg _) k0).trans (le_of_eq ?_)
  ring

theorem pair_near (hG : Line k h e G) (hG' : Line k h e G') (hd : NearG d h e G G') (a b c d' : Bool) (y z : ℝ) :
    ‖pairOf G G false a b c d' y z - pairOf G' G' false a b c d' y z‖ ≤ 2 * (k * d) * (rho h e y * rho h e z) := by
  have k0 : 0 ≤ k * rho h e y := (norm_nonneg _).trans (hG.bound y a c)
  have d0 : 0 ≤ d * rho h e y := (norm_nonneg _).trans (hd y a c)
  simp only [pairOf, Bool.false_eq_true, if_false]
  have e1 : comp (G y) a c * comp (G z) b d' - comp (G' y) a c * comp (G' z) b d' =
    (comp (G y) a c - comp (G' y) a c) * comp (G z) b d' + comp (G' y) a c * (comp (G z) b d' - comp (G' z) b d') := by ring
  rw [e1]
  refine (norm_add_le _ _).trans ?_
  rw [norm_mul, norm_mul]
  refine (add_le_add (mul_le_mul (hd y a c) (hG.bound z b d') (norm_nonneg _) d0)
    (mul_le_mul (hG'.bound y a c) (hd z b d') (norm_nonneg _) k0)).trans (le_of_eq ?_)
  ring

theorem term_near (hL' : SmallV l L') (hdl : NearV dl L L') (hR : SmallV r R) (hdr : NearV dr R R')
    (hG : Line k h e G) (hG' : Line k h e G') (hd : NearG d h e G G') (c : Ch) (o1 o2 i1 i2 : Leg) (y z : ℝ) (q : Lines) :
    ‖term ⟨L⟩ ⟨R⟩ (pairOf G G false) c o1 o2 i1 i2 y z q - term ⟨L'⟩ ⟨R'⟩ (pairOf G' G' false) c o1 o2 i1 i2 y z q‖ ≤
      size k d l dl r dr * (rho h e y * rho h e z) := by
  have key : ∀ {a a' b b' : ℂ}, ‖a - a'‖ ≤ 2 * dl → ‖a'‖ ≤ 2 * l → ‖b - b'‖ ≤ 2 * dr → ‖b‖ ≤ 2 * r →
      ‖a * pairOf G G false q.y0 q.y1 q.y2 q.y3 y z * b - a' * pairOf G' G' false q.y0 q.y1 q.y2 q.y3 y z * b'‖ ≤
      size k d l dl r dr * (rho h e y * rho h e z) := fun ha ha' hb hb1 => by
    refine (three ha ha' (pair_near hG hG' hd ..) (pair_le hG ..) (pair_le hG' ..) hb hb1).trans (le_of_eq ?_)
    unfold size
    ring
  cases c <;> simp only [term]
  · exact key (legVal_near hdl ..) (legVal_le hL' ..) (legVal_near hdr ..) (legVal_le hR ..)
  · split
    · exact key (legVal_near hdl ..) (legVal_le hL' ..) (legVal_near hdr ..) (legVal_le hR ..)
    · rw [sub_zero, norm_zero]
      exact (norm_nonneg _).trans (key (a := 0) (a' := 0) (b := 0) (b' := 0) (by simpa using (norm_nonneg _).trans (hdl true .a 0 (fun _ => true) 0))
        (by simpa using (norm_nonneg _).trans (hL' true .a 0 (fun _ => true) 0))
        (by simpa using (norm_nonneg _).trans (hdr true .a 0 (fun _ => true) 0))
        (by simpa using (norm_nonneg _).trans (hR true .a 0 (fun _ => true) 0)))
  · exact key (legVal_near hdl ..) (legVal_le hL' ..) (legVal_near hdr ..) (legVal_le hR ..)

theorem inner_near (hL' : SmallV l L') (hdl : NearV dl L L') (hR : SmallV r R) (hdr : NearV dr R R')
    (hG : Line k h e G) (hG' : Line k h e G') (hd : NearG d h e G G') (c : Ch) (o1 o2 i1 i2 : Leg) (y z : ℝ) :
    ‖inner ⟨L⟩ ⟨R⟩ (pairOf G G false) c o1 o2 i1 i2 y z - inner ⟨L'⟩ ⟨R'⟩ (pairOf G' G' false) c o1 o2 i1 i2 y z‖ ≤
      64 * size k d l dl r dr * (rho h e y * rho h e z) := by
  unfold Heredity.inner
  rw [← Finset.sum_sub_distrib]
  refine (norm_sum_le _ _).trans ?_
  refine (Finset.sum_le_card_nsmul _ _ _ fun q _ => term_near hL' hdl hR hdr hG hG' hd c o1 o2 i1 i2 y z q).trans (le_of_eq ?_)
  have card : Fintype.card Heredity.Lines = 64 := by decide
  rw [Finset.card_univ, card, nsmul_eq_mul]
  push_cast
  ring

theorem near_zero (V : VF) {l : ℝ} (hV : SmallV l V) : NearV l V 0 := fun h c s α ν => by
  simpa using hV h c s α ν

theorem small_zero : SmallV 0 (0 : VF) := fun h c s α ν => by simp

theorem nearG_refl (G : ℝ → Keldysh.Prop2 ℂ) : NearG 0 h e G G := fun x a b => by simp

theorem inner_zero (P : Pair) (c : Ch) (o1 o2 i1 i2 : Leg) (y z : ℝ) : inner ⟨(0 : VF)⟩ ⟨(0 : VF)⟩ P c o1 o2 i1 i2 y z = 0 := by
  unfold Heredity.inner
  refine Finset.sum_eq_zero fun q _ => ?_
  cases c <;> simp [term, legVal]

/-- The integrand of a bubble is integrable. -/
theorem inner_int (hh : 0 < h) (mL : MeasV L) (mR : MeasV R) (hL : SmallV l L) (hR : SmallV r R) (hG : Line k h e G) (c : Ch)
    (o1 o2 i1 i2 : Leg) (ν : Fin 4 → ℝ) :
    Integrable fun x => inner ⟨L⟩ ⟨R⟩ (pairOf G G false) c o1 o2 i1 i2 (lineE c ν x).1 (lineE c ν x).2 := by
  refine ((pair_kernel hh e c ν).1.const_mul (64 * size k 0 0 l r r)).mono' ?_ (Filter.Eventually.of_forall fun x => ?_)
  · exact (inner_meas mL mR (pair_meas hG.meas) measurable_const measurable_const measurable_const measurable_const
      (lines_meas c ν).1.measurable (lines_meas c ν).2.measurable c o1.s o1.k o2.s o2.k i1.s i1.k i2.s i2.k).aestronglyMeasurable
  · have := inner_near small_zero (near_zero L hL) hR (near_zero R hR) hG hG (nearG_refl G) c o1 o2 i1 i2 (lineE c ν x).1 (lineE c ν x).2
    rwa [inner_zero, sub_zero] at this

theorem size_nonneg (hdl : NearV dl L L') (hL' : SmallV l L') (hR : SmallV r R) (hdr : NearV dr R R') (hG : Line k h e G) (hd : NearG d h e G G') :
    0 ≤ size k d l dl r dr := by
  have l0 := (norm_nonneg _).trans (hL' true .a 0 (fun _ => true) 0)
  have dl0 := (norm_nonneg _).trans (hdl true .a 0 (fun _ => true) 0)
  have r0 := (norm_nonneg _).trans (hR true .a 0 (fun _ => true) 0)
  have dr0 := (norm_nonneg _).trans (hdr true .a 0 (fun _ => true) 0)
  have k0 := nonneg_of_mul_nonneg_left ((norm_nonneg _).trans (hG.bound 0 true true)) (rho_pos h e 0)
  have d0 := nonneg_of_mul_nonneg_left ((norm_nonneg _).trans (hd 0 true true)) (rho_pos h e 0)
  unfold size
  positivity

theorem half_near (hh : 0 < h) (mL : MeasV L) (mL' : MeasV L') (mR : MeasV R) (mR' : MeasV R') (hL : SmallV l L) (hL' : SmallV l L')
    (hdl : NearV dl L L') (hR : SmallV r R) (hR' : SmallV r R') (hdr : NearV dr R R')
    (hG : Line k h e G) (hG' : Line k h e G') (hd : NearG d h e G G') (c : Ch) (o1 o2 i1 i2 : Leg) (ν : Fin 4 → ℝ) :
    ‖pref c * (∫ x, inner ⟨L⟩ ⟨R⟩ (pairOf G G false) c o1 o2 i1 i2 (lineE c ν x).1 (lineE c ν x).2) -
      pref c * ∫ x, inner ⟨L'⟩ ⟨R'⟩ (pairOf G' G' false) c o1 o2 i1 i2 (lineE c ν x).1 (lineE c ν x).2‖ ≤
      128 * total (3 / 2) * h * size k d l dl r dr * fall h e c ν := by
  have i := inner_int hh mL mR hL hR hG c o1 o2 i1 i2 ν
  have i' := inner_int hh mL' mR' hL' hR' hG' c o1 o2 i1 i2 ν
  have hpi := Real.pi_gt_three
  have s0 := size_nonneg hdl hL' hR hdr hG hd
  obtain ⟨ki, kl⟩ := pair_kernel hh e c ν
  rw [← mul_sub, ← integral_sub i i', norm_mul, pref_norm]
  have le : ‖∫ x, inner ⟨L⟩ ⟨R⟩ (pairOf G G false) c o1 o2 i1 i2 (lineE c ν x).1 (lineE c ν x).2 -
      inner ⟨L'⟩ ⟨R'⟩ (pairOf G' G' false) c o1 o2 i1 i2 (lineE c ν x).1 (lineE c ν x).2‖ ≤ 64 * size k d l dl r dr * (2 * total (3 / 2) * h * fall h e c ν) := by
    refine (norm_integral_le_of_norm_le (ki.const_mul (64 * size k d l dl r dr)) (Filter.Eventually.of_forall fun x =>
      inner_near hL' hdl hR hdr hG hG' hd c o1 o2 i1 i2 _ _)).trans ?_
    rw [integral_const_mul]
    gcongr
  have one : 1 / (2 * Real.pi) ≤ 1 := by
    rw [div_le_one (by positivity)]
    linarith
  have := mul_le_mul one le (norm_nonneg _) zero_le_one
  refine this.trans (le_of_eq ?_)
  ring

/-- Bubbles of vertices and propagators that are close to each other. -/
theorem bub_near (hh : 0 < h) (mL : MeasV L) (mL' : MeasV L') (mR : MeasV R) (mR' : MeasV R') (hL : SmallV l L) (hL' : SmallV l L')
    (hdl : NearV dl L L') (hR : SmallV r R) (hR' : SmallV r R') (hdr : NearV dr R R')
    (hG : Line k h e G) (hG' : Line k h e G') (hd : NearG d h e G G') (b : Bool) (c : Ch) (s : ℕ) (α : Fin 4 → Bool) (ν : Fin 4 → ℝ) :
    ‖bub L R (pairOf G G false) b c s α ν - bub L' R' (pairOf G' G' false) b c s α ν‖ ≤
      128 * total (3 / 2) * h * size k d l dl r dr * fall h e c ν := by
  simp only [bub, bubble]
  split
  swap
  · rw [sub_zero, norm_zero]
    have := total_nonneg (3 / 2)
    have := fall_nonneg h e c ν
    have := size_nonneg hdl hL' hR hdr hG hd
    positivity
  have sym : size k d r dr l dl = size k d l dl r dr := by unfold size; ring
  cases b
  · exact half_near hh mL mL' mR mR' hL hL' hdl hR hR' hdr hG hG' hd c _ _ _ _ ν
  · rw [← sym]
    exact half_near hh mR mR' mL mL' hR hR' hdr hL hL' hdl hG hG' hd c _ _ _ _ ν

/-- The size of a bubble. -/
theorem bub_le (hh : 0 < h) (mL : MeasV L) (mR : MeasV R) (hL : SmallV l L) (hR : SmallV r R)
    (hG : Line k h e G) (b : Bool) (c : Ch) (s : ℕ) (α : Fin 4 → Bool) (ν : Fin 4 → ℝ) :
    ‖bub L R (pairOf G G false) b c s α ν‖ ≤ 128 * total (3 / 2) * h * size k 0 l l r r * fall h e c ν := by
  have z : bub 0 0 (pairOf G G false) b c s α ν = 0 := by
    simp only [bub, bubble]
    split
    · simp only [ite_self, inner_zero, integral_zero, mul_zero]
    · rfl
  have l0 := (norm_nonneg _).trans (hL true .a 0 (fun _ => true) 0)
  have r0 := (norm_nonneg _).trans (hR true .a 0 (fun _ => true) 0)
  have := bub_near hh mL (L' := 0) (fun _ _ _ _ => measurable_const) mR (R' := 0) (fun _ _ _ _ => measurable_const) hL
    (fun h c s α ν => by simpa using l0) (near_zero L hL) hR (fun h c s α ν => by simpa using r0) (near_zero R hR) hG hG (nearG_refl G) b c s α ν
  rwa [z, sub_zero] at this

end

end Verif.Converge
