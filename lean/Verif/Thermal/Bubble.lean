import Verif.Thermal.Lemmas

/-! Bubbles of vertices in equilibrium: existence of the integrals, boundedness and equilibrium. -/
namespace Verif.Thermal
open Verif.Fdt Verif.Heredity Verif.Symmetries Verif.Invariant Verif.Sde.Limit MeasureTheory
open Verif.Freqs (Ch)

/-- A pair of propagators that both decay. -/
structure DecayPair (P : Pair) : Prop where
  meas : ∀ a b c d, Measurable fun q : ℝ × ℝ => P a b c d q.1 q.2
  bound : ∃ C : ℝ, 0 ≤ C ∧ ∀ a b c d y z, ‖P a b c d y z‖ ≤ C * ((1 + ‖y‖)⁻¹ * (1 + ‖z‖)⁻¹)


theorem kms_inner {T mu : ℝ} {L R : VF} {P : Pair} (hL : Equilibrium T mu L) (hR : Equilibrium T mu R) {y z : ℝ}
    (hP : Kms 1 T ![y - mu, z - mu, mu - y, mu - z] (fun k => P k.1 k.2.1 k.2.2.1 k.2.2.2 y z)) (c : Ch)
    (s1 s2 s3 s4 : Bool) {e1 e2 e3 e4 : ℝ}
    (hc : Meets c e1 e2 e3 e4 y z) :
    Kms 1 T ![e1 - mu, e2 - mu, mu - e3, mu - e4] (fun k => Heredity.inner ⟨L⟩ ⟨R⟩ P c ⟨s1, k.1, e1⟩ ⟨s2, k.2.1, e2⟩
      ⟨s3, k.2.2.1, e3⟩ ⟨s4, k.2.2.2, e4⟩ y z) := by
  have h := fun u v => kms_one hL hR hP c s1 s2 s3 s4 u v hc
  simp only [Heredity.inner, sum_lines, Finset.sum_add_distrib]
  exact ((h true true).add (h true false)).add ((h false true).add (h false false))

theorem rot_int {μ : Measure ℝ} {F : ℝ → K4 → ℂ} (hF : ∀ k, Integrable (fun x => F x k) μ) (b : K4) :
    rot (fun k => ∫ x, F x k ∂μ) b = ∫ x, rot (F x) b ∂μ := by
  simp only [rot]
  rw [integral_const_mul, integral_finsetSum _ fun k _ => (hF k).const_mul _]
  simp only [integral_const_mul]

theorem kms_int {μ : Measure ℝ} {s : ℂ} {T : ℝ} {e : Fin 4 → ℝ} {F : ℝ → K4 → ℂ} (hF : ∀ k, Integrable (fun x => F x k) μ)
    (h : ∀ x, Kms s T e (F x)) : Kms s T e (fun k => ∫ x, F x k ∂μ) := fun b => by
  rw [rot_int hF, rot_int hF, show star (∫ x, rot (F x) b ∂μ) = ∫ x, star (rot (F x) b) ∂μ from integral_conj.symm]
  simp only [h _ b]
  rw [integral_const_mul]

/-! ### Integrability -/

theorem decay_pair {G S : ℝ → Keldysh.Prop2 ℂ} (hG : Decays G) {diff : Bool} (hS : diff = true → Decays S) :
    DecayPair (pairOf G S diff) := by
  obtain ⟨C, hC0, hC⟩ := comp_bound hG
  have mG := comp_meas hG
  cases diff
  · refine ⟨fun a b c d => ((mG a c).comp measurable_fst).mul ((mG b d).comp measurable_snd), C * C, by positivity,
      fun a b c d y z => ?_⟩
    calc ‖pairOf G S false a b c d y z‖ = ‖comp (G y) a c‖ * ‖comp (G z) b d‖ := norm_mul _ _
      _ ≤ (C * (1 + ‖y‖)⁻¹) * (C * (1 + ‖z‖)⁻¹) := by
        have := hC a c y; have := hC b d z; gcongr
      _ = _ := by ring
  · obtain ⟨D, hD0, hD⟩ := comp_bound (hS rfl)
    have mS := comp_meas (hS rfl)
    refine ⟨fun a b c d => (((mG a c).comp measurable_fst).mul ((mS b d).comp measurable_snd)).add
      (((mS a c).comp measurable_fst).mul ((mG b d).comp measurable_snd)), C * D + D * C, by positivity,
      fun a b c d y z => ?_⟩
    calc ‖pairOf G S true a b c d y z‖ ≤ ‖comp (G y) a c‖ * ‖comp (S z) b d‖ + ‖comp (S y) a c‖ * ‖comp (G z) b d‖ :=
          (norm_add_le _ _).trans_eq (by rw [norm_mul, norm_mul])
      _ ≤ (C * (1 + ‖y‖)⁻¹) * (D * (1 + ‖z‖)⁻¹) + (D * (1 + ‖y‖)⁻¹) * (C * (1 + ‖z‖)⁻¹) := by
        have := hC a c y; have := hC b d z; have := hD a c y; have := hD b d z; gcongr
      _ = _ := by ring

theorem leg_meas {X : Type} [MeasurableSpace X] {V : VF} (hV : TameV V) (h : Bool) (c : Ch) (s1 s2 s3 s4 k1 k2 k3 k4 : Bool)
    {e1 e2 e3 e4 : X → ℝ} (m1 : Measurable e1) (m2 : Measurable e2) (m3 : Measurable e3) (m4 : Measurable e4) :
    Measurable fun x => legVal ⟨V⟩ h c ⟨s1, k1, e1 x⟩ ⟨s2, k2, e2 x⟩ ⟨s3, k3, e3 x⟩ ⟨s4, k4, e4 x⟩ := by
  have ml : Measurable fun x => ![e1 x, e2 x, e3 x, e4 x] := by
    rw [measurable_pi_iff]; intro k
    fin_cases k
    exacts [m1, m2, m3, m4]
  have h0 := ((hV h c 0 (by omega)).meas ![k1, k2, k3, k4]).comp ml
  have h1 := ((hV h c 1 (by omega)).meas ![k1, k2, k3, k4]).comp ml
  refine Measurable.add ?_ ?_
  · by_cases hs : s1 = s3 ∧ s2 = s4
    · simp only [if_pos hs]; exact h0
    · simp only [if_neg hs]; exact measurable_const
  · by_cases hs : s1 = s4 ∧ s2 = s3
    · simp only [if_pos hs]; exact h1
    · simp only [if_neg hs]; exact measurable_const

theorem leg_bound {V : VF} (hV : TameV V) : ∃ B : ℝ, 0 ≤ B ∧ ∀ h c o1 o2 i1 i2, ‖legVal ⟨V⟩ h c o1 o2 i1 i2‖ ≤ B := by
  have : ∀ h c, ∃ B : ℝ, 0 ≤ B ∧ ∀ o1 o2 i1 i2, ‖legVal ⟨V⟩ h c o1 o2 i1 i2‖ ≤ B := by
    intro h c
    obtain ⟨B0, hB0⟩ := (hV h c 0 (by omega)).bound
    obtain ⟨B1, hB1⟩ := (hV h c 1 (by omega)).bound
    have p0 : 0 ≤ B0 := (norm_nonneg _).trans (hB0 (fun _ => false) fun _ => 0)
    have p1 : 0 ≤ B1 := (norm_nonneg _).trans (hB1 (fun _ => false) fun _ => 0)
    refine ⟨B0 + B1, by positivity, fun o1 o2 i1 i2 => (norm_add_le _ _).trans (add_le_add ?_ ?_)⟩
    · split
      · exact hB0 _ _
      · simpa using p0
    · split
      · exact hB1 _ _
      · simpa using p1
  choose B h0 hB using this
  refine ⟨∑ h, (B h .a + B h .p + B h .t), ?_, fun h c o1 o2 i1 i2 => (hB h c o1 o2 i1 i2).trans ?_⟩
  · exact Finset.sum_nonneg fun h _ => by have := h0 h .a; have := h0 h .p; have := h0 h .t; positivity
  · have : B h c ≤ B h .a + B h .p + B h .t := by
      have := h0 h .a; have := h0 h .p; have := h0 h .t
      cases c <;> linarith
    refine this.trans (Finset.single_le_sum (f := fun h => B h .a + B h .p + B h .t) (fun h _ => ?_) (Finset.mem_univ h))
    have := h0 h .a; have := h0 h .p; have := h0 h .t; positivity

theorem term_meas {X : Type} [MeasurableSpace X] {L R : VF} (hL : TameV L) (hR : TameV R) {P : Pair} (hP : DecayPair P)
    (c : Ch) (s1 s2 s3 s4 k1 k2 k3 k4 : Bool) {e1 e2 e3 e4 y z : X → ℝ} (m1 : Measurable e1) (m2 : Measurable e2)
    (m3 : Measurable e3) (m4 : Measurable e4) (my : Measurable y) (mz : Measurable z) (q : Heredity.Lines) :
    Measurable fun x => term ⟨L⟩ ⟨R⟩ P c ⟨s1, k1, e1 x⟩ ⟨s2, k2, e2 x⟩ ⟨s3, k3, e3 x⟩ ⟨s4, k4, e4 x⟩ (y x) (z x) q := by
  have mP := (hP.meas q.y0 q.y1 q.y2 q.y3).comp (my.prodMk mz)
  cases c with
  | a => exact ((leg_meas hL _ _ _ _ _ _ _ _ _ _ m1 mz my m4).mul mP).mul (leg_meas hR _ _ _ _ _ _ _ _ _ _ my m2 m3 mz)
  | p =>
    by_cases hs : q.u = s3 ∧ q.v = s4
    · simp only [term, if_pos hs]
      exact ((leg_meas hL _ _ _ _ _ _ _ _ _ _ m1 m2 my mz).mul mP).mul (leg_meas hR _ _ _ _ _ _ _ _ _ _ my mz m3 m4)
    · simp only [term, if_neg hs]
      exact measurable_const
  | t => exact ((leg_meas hL _ _ _ _ _ _ _ _ _ _ mz m2 my m4).mul mP).mul (leg_meas hR _ _ _ _ _ _ _ _ _ _ m1 my m3 mz)

theorem inner_meas {X : Type} [MeasurableSpace X] {L R : VF} (hL : TameV L) (hR : TameV R) {P : Pair} (hP : DecayPair P)
    (c : Ch) (s1 s2 s3 s4 k1 k2 k3 k4 : Bool) {e1 e2 e3 e4 y z : X → ℝ} (m1 : Measurable e1) (m2 : Measurable e2)
    (m3 : Measurable e3) (m4 : Measurable e4) (my : Measurable y) (mz : Measurable z) :
    Measurable fun x => Heredity.inner ⟨L⟩ ⟨R⟩ P c ⟨s1, k1, e1 x⟩ ⟨s2, k2, e2 x⟩ ⟨s3, k3, e3 x⟩ ⟨s4, k4, e4 x⟩ (y x) (z x) :=
  Finset.measurable_sum _ fun q _ => term_meas hL hR hP c s1 s2 s3 s4 k1 k2 k3 k4 m1 m2 m3 m4 my mz q

theorem inner_bound {L R : VF} (hL : TameV L) (hR : TameV R) {P : Pair} (hP : DecayPair P) : ∃ B : ℝ, 0 ≤ B ∧
    ∀ c o1 o2 i1 i2 y z, ‖Heredity.inner ⟨L⟩ ⟨R⟩ P c o1 o2 i1 i2 y z‖ ≤ B * (((1 + ‖y‖)⁻¹) ^ 2 + ((1 + ‖z‖)⁻¹) ^ 2) := by
  obtain ⟨A, hA0, hA⟩ := leg_bound hL
  obtain ⟨B, hB0, hB⟩ := leg_bound hR
  obtain ⟨C, hC0, hC⟩ := hP.bound
  refine ⟨(Finset.univ : Finset Heredity.Lines).card * (A * C * B), by positivity, fun c o1 o2 i1 i2 y z => ?_⟩
  have key : ∀ q, ‖term ⟨L⟩ ⟨R⟩ P c o1 o2 i1 i2 y z q‖ ≤ A * C * B * (((1 + ‖y‖)⁻¹) ^ 2 + ((1 + ‖z‖)⁻¹) ^ 2) := by
    intro q
    have three : ∀ l r : ℂ, ‖l‖ ≤ A → ‖r‖ ≤ B → ‖l * P q.y0 q.y1 q.y2 q.y3 y z * r‖ ≤
        A * C * B * (((1 + ‖y‖)⁻¹) ^ 2 + ((1 + ‖z‖)⁻¹) ^ 2) := by
      intro l r hl hr
      rw [norm_mul, norm_mul]
      have hp := hC q.y0 q.y1 q.y2 q.y3 y z
      set p := (1 + ‖y‖)⁻¹ with hp'
      set w := (1 + ‖z‖)⁻¹ with hw'
      have p0 : 0 ≤ p := by positivity
      have w0 : 0 ≤ w := by positivity
      calc _ ≤ A * (C * (p * w)) * B := by gcongr
        _ = A * C * B * (p * w) := by ring
        _ ≤ _ := by
          refine mul_le_mul_of_nonneg_left ?_ (by positivity)
          nlinarith [sq_nonneg (p - w)]
    cases c with
    | a => exact three _ _ (hA _ _ _ _ _ _) (hB _ _ _ _ _ _)
    | p =>
      simp only [term]
      split
      · exact three _ _ (hA _ _ _ _ _ _) (hB _ _ _ _ _ _)
      · rw [norm_zero]; positivity
    | t => exact three _ _ (hA _ _ _ _ _ _) (hB _ _ _ _ _ _)
  calc _ ≤ ∑ q, ‖term ⟨L⟩ ⟨R⟩ P c o1 o2 i1 i2 y z q‖ := norm_sum_le _ _
    _ ≤ ∑ q : Heredity.Lines, A * C * B * (((1 + ‖y‖)⁻¹) ^ 2 + ((1 + ‖z‖)⁻¹) ^ 2) := Finset.sum_le_sum fun q _ => key q
    _ = _ := by rw [Finset.sum_const, nsmul_eq_mul]; ring

/-- Energies of the lines are shifted frequencies. -/
theorem lineE_two (c : Ch) (ν : Fin 4 → ℝ) : Integrable (fun x => ((1 + ‖(Heredity.lineE c ν x).1‖)⁻¹) ^ 2 + ((1 + ‖(Heredity.lineE c ν x).2‖)⁻¹) ^ 2) ∧
    ∫ x, (((1 + ‖(Heredity.lineE c ν x).1‖)⁻¹) ^ 2 + ((1 + ‖(Heredity.lineE c ν x).2‖)⁻¹) ^ 2) = 2 * ∫ x : ℝ, ((1 + ‖x‖)⁻¹) ^ 2 := by
  have key : ∀ s t : ℝ, (Integrable (fun x : ℝ => ((1 + ‖x + s‖)⁻¹) ^ 2 + ((1 + ‖x + t‖)⁻¹) ^ 2) ∧
      ∫ x : ℝ, (((1 + ‖x + s‖)⁻¹) ^ 2 + ((1 + ‖x + t‖)⁻¹) ^ 2) = 2 * ∫ x : ℝ, ((1 + ‖x‖)⁻¹) ^ 2) ∧
      (Integrable (fun x : ℝ => ((1 + ‖x + s‖)⁻¹) ^ 2 + ((1 + ‖t - x‖)⁻¹) ^ 2) ∧
      ∫ x : ℝ, (((1 + ‖x + s‖)⁻¹) ^ 2 + ((1 + ‖t - x‖)⁻¹) ^ 2) = 2 * ∫ x : ℝ, ((1 + ‖x‖)⁻¹) ^ 2) := by
    intro s t
    have e1 : ∀ s : ℝ, ∫ x : ℝ, ((1 + ‖x + s‖)⁻¹) ^ 2 = ∫ x : ℝ, ((1 + ‖x‖)⁻¹) ^ 2 := fun s =>
      integral_add_right_eq_self (fun x : ℝ => ((1 + ‖x‖)⁻¹) ^ 2) s
    have e2 : ∫ x : ℝ, ((1 + ‖t - x‖)⁻¹) ^ 2 = ∫ x : ℝ, ((1 + ‖x‖)⁻¹) ^ 2 :=
      integral_sub_left_eq_self (fun x : ℝ => ((1 + ‖x‖)⁻¹) ^ 2) volume t
    refine ⟨⟨(shift_two s).add (shift_two t), ?_⟩, (shift_two s).add (flip_two t), ?_⟩
    · rw [integral_add (shift_two s) (shift_two t), e1, e1]; ring
    · rw [integral_add (shift_two s) (flip_two t), e1, e2]; ring
  cases c with
  | a =>
    have := (key (-((ν 3 - ν 0) / 2)) ((ν 3 - ν 0) / 2)).1
    simp only [← sub_eq_add_neg] at this
    exact this
  | p =>
    have := (key ((ν 0 + ν 1) / 2) ((ν 0 + ν 1) / 2)).2
    simp only [sub_eq_add_neg, add_comm ((ν 0 + ν 1) / 2) (-_)] at this
    exact this
  | t =>
    have := (key (-((ν 3 - ν 1) / 2)) ((ν 3 - ν 1) / 2)).1
    simp only [← sub_eq_add_neg] at this
    exact this

theorem lineE_meas (c : Ch) : (Measurable fun q : (Fin 4 → ℝ) × ℝ => (Heredity.lineE c q.1 q.2).1) ∧
    Measurable fun q : (Fin 4 → ℝ) × ℝ => (Heredity.lineE c q.1 q.2).2 := by
  cases c <;> simp only [Heredity.lineE] <;> constructor <;> fun_prop

theorem tame_half {L R : VF} (hL : TameV L) (hR : TameV R) {P : Pair} (hP : DecayPair P) (c : Ch) (s : Nat) :
    Tame (fun α ν => if ν 0 + ν 1 = ν 2 + ν 3 then pref c * ∫ x : ℝ, Heredity.inner ⟨L⟩ ⟨R⟩ P c ⟨true, α 0, ν 0⟩
      ⟨false, α 1, ν 1⟩ ⟨s == 0, α 2, ν 2⟩ ⟨s != 0, α 3, ν 3⟩ (Heredity.lineE c ν x).1 (Heredity.lineE c ν x).2 else 0) := by
  constructor
  · intro α
    have m := inner_meas (X := (Fin 4 → ℝ) × ℝ) hL hR hP c true false (s == 0) (s != 0) (α 0) (α 1) (α 2) (α 3)
      (e1 := fun q => q.1 0) (e2 := fun q => q.1 1) (e3 := fun q => q.1 2) (e4 := fun q => q.1 3)
      (by fun_prop) (by fun_prop) (by fun_prop) (by fun_prop) (lineE_meas c).1 (lineE_meas c).2
    have mi := (m.stronglyMeasurable.integral_prod_right' (ν := volume)).measurable.const_mul (pref c)
    have ms : MeasurableSet {ν : Fin 4 → ℝ | ν 0 + ν 1 = ν 2 + ν 3} := measurableSet_eq_fun (by fun_prop) (by fun_prop)
    exact Measurable.ite ms mi measurable_const
  · obtain ⟨B, hB0, hB⟩ := inner_bound hL hR hP
    have j0 : 0 ≤ ∫ x : ℝ, ((1 + ‖x‖)⁻¹) ^ 2 := integral_nonneg fun x => by positivity
    refine ⟨‖pref c‖ * (B * (2 * ∫ x : ℝ, ((1 + ‖x‖)⁻¹) ^ 2)), fun α ν => ?_⟩
    show ‖if _ then _ else _‖ ≤ _
    split
    · rw [norm_mul]
      refine mul_le_mul_of_nonneg_left ?_ (norm_nonneg _)
      obtain ⟨i, e⟩ := lineE_two c ν
      rw [← e, ← integral_const_mul]
      exact norm_integral_le_of_norm_le (i.const_mul B) (Filter.Eventually.of_forall fun x => hB _ _ _ _ _ _ _)
    · rw [norm_zero]; positivity

theorem tame_bub {L R : VF} (hL : TameV L) (hR : TameV R) {P : Pair} (hP : DecayPair P) : TameV (bub L R P) := by
  intro h c s _
  cases h
  · exact tame_half hL hR hP c s
  · exact tame_half hR hL hP c s

theorem inner_int {L R : VF} (hL : TameV L) (hR : TameV R) {P : Pair} (hP : DecayPair P) (c : Ch) (o1 o2 i1 i2 : Leg)
    (ν : Fin 4 → ℝ) : Integrable fun x => Heredity.inner ⟨L⟩ ⟨R⟩ P c o1 o2 i1 i2 (Heredity.lineE c ν x).1 (Heredity.lineE c ν x).2 := by
  obtain ⟨B, _, hB⟩ := inner_bound hL hR hP
  refine ((lineE_two c ν).1.const_mul B).mono' ?_ (Filter.Eventually.of_forall fun x => hB _ _ _ _ _ _ _)
  exact (inner_meas (X := ℝ) hL hR hP c o1.s o2.s i1.s i2.s o1.k o2.k i1.k i2.k measurable_const measurable_const measurable_const
    measurable_const ((lineE_meas c).1.comp measurable_prodMk_left) ((lineE_meas c).2.comp measurable_prodMk_left)).aestronglyMeasurable

theorem meets (c : Ch) {ν : Fin 4 → ℝ} (h : ν 0 + ν 1 = ν 2 + ν 3) (x : ℝ) :
    Meets c (ν 0) (ν 1) (ν 2) (ν 3) (Heredity.lineE c ν x).1 (Heredity.lineE c ν x).2 := by
  cases c <;> simp only [Heredity.lineE, Meets] <;> constructor <;> linarith

theorem bub_equilibrium {T mu : ℝ} {L R : VF} (hL : Equilibrium T mu L) (hR : Equilibrium T mu R) (tL : TameV L) (tR : TameV R)
    {P : Pair} (hP : DecayPair P)
    (kP : ∀ y z, Kms 1 T ![y - mu, z - mu, mu - y, mu - z] (fun k => P k.1 k.2.1 k.2.2.1 k.2.2.2 y z)) :
    Equilibrium T mu (bub L R P) := by
  have half : ∀ {L R : VF}, Equilibrium T mu L → Equilibrium T mu R → TameV L → TameV R → ∀ (c : Ch) (s : Nat) (ν : Fin 4 → ℝ),
      ν 0 + ν 1 = ν 2 + ν 3 → Kms (-1) T (rel mu ν) (fun k => pref c * ∫ x : ℝ, Heredity.inner ⟨L⟩ ⟨R⟩ P c ⟨true, k.1, ν 0⟩
      ⟨false, k.2.1, ν 1⟩ ⟨s == 0, k.2.2.1, ν 2⟩ ⟨s != 0, k.2.2.2, ν 3⟩ (Heredity.lineE c ν x).1 (Heredity.lineE c ν x).2) := by
    intro L R hL hR tL tR c s ν hν
    refine Kms.turn (star_pref c) (kms_int (fun k => inner_int tL tR hP c _ _ _ _ ν) fun x => ?_)
    exact kms_inner hL hR (kP _ _) c _ _ _ _ (meets c hν x)
  intro h c s _ ν hν
  cases h
  · have e : comps (bub L R P) false c s ν = fun k => pref c * ∫ x : ℝ, Heredity.inner ⟨L⟩ ⟨R⟩ P c ⟨true, k.1, ν 0⟩
      ⟨false, k.2.1, ν 1⟩ ⟨s == 0, k.2.2.1, ν 2⟩ ⟨s != 0, k.2.2.2, ν 3⟩ (Heredity.lineE c ν x).1 (Heredity.lineE c ν x).2 := by
      funext k
      exact if_pos hν
    rw [e]
    exact half hL hR tL tR c s ν hν
  · have e : comps (bub L R P) true c s ν = fun k => pref c * ∫ x : ℝ, Heredity.inner ⟨R⟩ ⟨L⟩ P c ⟨true, k.1, ν 0⟩
      ⟨false, k.2.1, ν 1⟩ ⟨s == 0, k.2.2.1, ν 2⟩ ⟨s != 0, k.2.2.2, ν 3⟩ (Heredity.lineE c ν x).1 (Heredity.lineE c ν x).2 := by
      funext k
      exact if_pos hν
    rw [e]
    exact half hR hL tR tL c s ν hν

end Verif.Thermal
